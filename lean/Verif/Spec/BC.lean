import Verif.Model.BC

/-!
# Specification of Dirichlet conditions

What a boundary specification selects, in terms of its own fields only.
-/

namespace Verif.Spec

open Verif.Model

variable {Pt R : Type*}

/-- The location predicate holds at the node. -/
def located (l : Location Pt) (pt : Pt) (node : ℕ) : Bool :=
  match l with
  | .one f => f pt
  | .two f => f pt node
  | .bad => false

/-- Specification `s` constrains component `comp` of node `node` (at `pt`) of variable `i`. -/
def selects (s : BCSpec Pt R) (i node comp : ℕ) (pt : Pt) : Bool :=
  (s.variableIndex == none || s.variableIndex == some (i : ℤ)) &&
  (s.component == .all || s.component == .idx comp) &&
  located s.location pt node

end Verif.Spec
