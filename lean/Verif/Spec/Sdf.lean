import Verif.Model.Sdf

/-!
# Specification of solids built by union, intersection and difference
-/

namespace Verif.Spec

open Verif.Model

/-- An expression over solids `ι`. -/
inductive Csg (ι : Type) where
  | solid (i : ι)
  | union (a b : Csg ι)
  | inter (a b : Csg ι)
  | diff (a b : Csg ι)

mutual
/-- Which points are strictly inside, given the points inside and outside the solids. -/
def Csg.inside {ι P : Type} (ins out : ι → P → Prop) : Csg ι → P → Prop
  | .solid i, p => ins i p
  | .union a b, p => a.inside ins out p ∨ b.inside ins out p
  | .inter a b, p => a.inside ins out p ∧ b.inside ins out p
  | .diff a b, p => a.inside ins out p ∧ b.outside ins out p

/-- Which points are strictly outside. -/
def Csg.outside {ι P : Type} (ins out : ι → P → Prop) : Csg ι → P → Prop
  | .solid i, p => out i p
  | .union a b, p => a.outside ins out p ∧ b.outside ins out p
  | .inter a b, p => a.outside ins out p ∨ b.outside ins out p
  | .diff a b, p => a.outside ins out p ∨ b.inside ins out p
end

/-- The object a user builds with `|`, `&` and `-`. -/
def Csg.build {ι K : Type} [Field K] [LinearOrder K] {d : ℕ} (f : ι → Sdf K d) : Csg ι → Sdf K d
  | .solid i => f i
  | .union a b => (a.build f).union (b.build f)
  | .inter a b => (a.build f).inter (b.build f)
  | .diff a b => (a.build f).diff (b.build f)

/-- The vectorised evaluation agrees with the one for a single point. -/
def PointwiseEval {K : Type} {d : ℕ} (f : Sdf K d) : Prop := ∀ ps, f.evaluate ps = ps.map f.call

/-- The default bounds, when there are any, contain every point inside. -/
def Bounded {K : Type} [Field K] [LinearOrder K] {d : ℕ} (f : Sdf K d) : Prop :=
  ∀ lo hi, f.bounds = .ok (lo, hi) → ∀ p, f.call p < 0 → ∀ k, lo k ≤ p k ∧ p k ≤ hi k

/-- The field changes by no more than the distance between points. -/
def Lipschitz {K : Type} [Field K] [LinearOrder K] {d : ℕ} (dist : Pt K d → Pt K d → K) (f : Sdf K d) : Prop :=
  ∀ p q, f.call p - f.call q ≤ dist p q

end Verif.Spec
