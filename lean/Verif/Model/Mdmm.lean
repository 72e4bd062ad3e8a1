import Verif.Model.Solution
import Mathlib.Algebra.Field.Basic
import Mathlib.Algebra.BigOperators.Group.List.Basic

/-!
# The modified differential multiplier method (`/repo/feax/gene/mdmm.py`)

Arrays are lists. The square root (`relu(out) ** 0.5`) is a parameter.
-/

namespace Verif.Model

/-- A pytree of arrays in which Lagrange multipliers are marked (`/repo/feax/gene/mdmm.py:10-14`). Simplification: tuples and dicts
are nested pairs. -/
inductive MTree (F : Type*)
  | leaf (value : List F)
  | multiplier (value : List F)
  | empty
  | pair (a b : MTree F)

/-- `prepare_update` (`/repo/feax/gene/mdmm.py:17-28`). -/
def prepareUpdate {F : Type*} [Neg F] : MTree F → MTree F
  | .leaf v => .leaf v
  | .multiplier v => .multiplier (v.map fun y => -y)
  | .empty => .empty
  | .pair a b => .pair (prepareUpdate a) (prepareUpdate b)

/-- Learnable parameters of a constraint: multipliers, and slacks for an inequality. -/
structure MParams (F : Type*) where
  lam : List F
  slack : Option (List F)

/-- `Constraint` (`/repo/feax/gene/mdmm.py:54-68`); the loss comes with the infeasibility. -/
structure MConstraint (P X F : Type*) where
  init : X → P
  loss : P → X → F × List F

section
variable {F X : Type*} [Field F] [LinearOrder F]

/-- The loss for given infeasibilities (`/repo/feax/gene/mdmm.py:94`, `125`), with the default reduction `sum`. -/
def multiplierLoss (damping weight : F) (lam inf : List F) : F :=
  weight * (List.zipWith (fun l g => l * g + damping * g ^ 2 / 2) lam inf).sum

/-- `eq` (`/repo/feax/gene/mdmm.py:71-96`). -/
def mdmmEq (fn : X → List F) (damping weight : F) : MConstraint (MParams F) X F where
  init := fun x => ⟨(fn x).map fun _ => 0, none⟩
  loss := fun p x => (multiplierLoss damping weight p.lam (fn x), fn x)

/-- `fun(x) - slack ** 2` (`/repo/feax/gene/mdmm.py:124`). -/
def slackInfeasibility (h slack : List F) : List F := List.zipWith (fun h s => h - s ^ 2) h slack

/-- `ineq` (`/repo/feax/gene/mdmm.py:99-127`). -/
def mdmmIneq (sqrt : F → F) (fn : X → List F) (damping weight : F) : MConstraint (MParams F) X F where
  init := fun x => ⟨(fn x).map fun _ => 0, some ((fn x).map fun y => sqrt (max y 0))⟩
  loss := fun p x =>
    let inf := slackInfeasibility (fn x) (p.slack.getD [])
    (multiplierLoss damping weight p.lam inf, inf)

/-- `combine` (`/repo/feax/gene/mdmm.py:130-148`); unpacking the empty `zip` raises. -/
def mdmmCombine {P : Type*} (cs : List (MConstraint P X F)) :
    Except PyErr ((X → List P) × (List P → X → F × List (List F))) :=
  if cs.isEmpty then .error .valueError
  else .ok (fun x => cs.map fun c => c.init x,
    fun ps x =>
      let outs := List.zipWith (fun p c => c.loss p x) ps cs
      ((outs.map (·.1)).sum, outs.map (·.2)))

end

end Verif.Model
