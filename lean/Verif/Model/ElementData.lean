import Verif.Model.Geometry
import Verif.Model.Kernels

/-!
# `feax.problem`: element data handed to the kernels, for one-variable problems

Connects the geometry (`Model/Geometry.lean`) with the arrays the kernels read (`Model/Kernels.lean`).
-/

namespace Verif.Model

noncomputable section

variable {K : Type*} [Field K] {d n m : ℕ}

/-- `shape_vals`, `shape_grads`, `JxW` of one cell at point `q` (`/repo/feax/fe.py:75-80`, `123-128`). -/
def RefElem.fePoint (r : RefElem K d n m) (X : Fin n → Fin d → K) (q : Fin m) : FePoint K :=
  ⟨List.ofFn (r.vals q), List.ofFn (fun a => List.ofFn (r.physGrads X q a)), r.JxW X q⟩

/-- The quadrature points of one cell with their positions (`physical_quad_points`) and parameter values
(`/repo/feax/problem.py:255-275`). -/
def RefElem.cellPoints (r : RefElem K d n m) (X : Fin n → Fin d → K) (iv : Fin m → List K) : List (QPoint K) :=
  List.ofFn (fun q => ⟨List.ofFn (r.quadPoint X q), iv q, [r.fePoint X q]⟩)

/-- The quadrature points of one face: face shape values, gradients and `nanson_scale`
(`/repo/feax/fe.py:196-221`, `/repo/feax/problem.py:283-303`). -/
def RefElem.facePoints (norm : (Fin d → K) → K) (r : RefElem K d n m) (normal : Fin d → K) (X : Fin n → Fin d → K)
    (iv : Fin m → List K) : List (QPoint K) :=
  List.ofFn (fun q => ⟨List.ofFn (r.quadPoint X q), iv q,
    [⟨List.ofFn (r.vals q), List.ofFn (fun a => List.ofFn (r.physGrads X q a)), r.nansonScale norm normal X q⟩]⟩)

/-- Coordinates of the nodes of one cell, from node numbers and `mesh.points` (`/repo/feax/fe.py:118`). -/
def coordsOf (X : ℕ → ℕ → K) (nodes : List ℕ) (a : Fin n) (l : Fin d) : K := X (nodes.getD a 0) l

end

end Verif.Model
