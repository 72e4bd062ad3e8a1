import Verif.Model.Elements
import Mathlib.LinearAlgebra.Matrix.NonsingularInverse

/-!
# `feax.fe`: physical gradients, integration weights, interpolation

Arrays of fixed shape are functions of their indices. Simplification: exact arithmetic in a field; node numbers of cells are
in range.
-/

namespace Verif.Model

open Matrix

noncomputable section

/-- A reference element tabulated at quadrature points: `shape_vals`, `shape_grads_ref`, `hess_ref`, `quad_weights`
(`/repo/feax/fe.py:75-80`, `153`); the same record holds one face (`face_shape_vals[f]`, `face_shape_grads_ref[f]`,
`face_quad_weights[f]`, `/repo/feax/fe.py:76-77`). `n` nodes, `m` points, dimension `d`. -/
structure RefElem (K : Type*) (d n m : ℕ) where
  vals : Fin m → Fin n → K
  grads : Fin m → Fin n → Fin d → K
  hess : Fin m → Fin n → Fin d → Fin d → K
  weights : Fin m → K

variable {K : Type*} [Field K] {d n m : ℕ}

/-- Coordinates of the nodes of one cell: a row of `np.take(self.points, self.cells, axis=0)` (`/repo/feax/fe.py:118`). -/
def cellCoords {N C : ℕ} {α : Type*} (points : Fin N → α) (cells : Fin C → Fin n → Fin N) (c : Fin C) : Fin n → α :=
  fun a => points (cells c a)

namespace RefElem

/-- `jacobian_dx_deta` (`/repo/feax/fe.py:119-121`, `205`). -/
def jacobian (r : RefElem K d n m) (X : Fin n → Fin d → K) (q : Fin m) : Matrix (Fin d) (Fin d) K :=
  Matrix.of fun i j => ∑ a, X a i * r.grads q a j

/-- `shape_grads_physical` (`/repo/feax/fe.py:123-127`), also on faces (`/repo/feax/fe.py:207-211`). -/
def physGrads (r : RefElem K d n m) (X : Fin n → Fin d → K) (q : Fin m) (a : Fin n) (k : Fin d) : K :=
  ∑ j, r.grads q a j * (r.jacobian X q)⁻¹ j k

/-- `JxW` (`/repo/feax/fe.py:122`, `128`). -/
def JxW (r : RefElem K d n m) (X : Fin n → Fin d → K) (q : Fin m) : K := (r.jacobian X q).det * r.weights q

/-- `_compute_shape_hessians` (`/repo/feax/fe.py:152-173`). -/
def physHess (r : RefElem K d n m) (X : Fin n → Fin d → K) (q : Fin m) (a : Fin n) (k l : Fin d) : K :=
  ∑ i, ∑ j, r.hess q a i j * (r.jacobian X q)⁻¹ i k * (r.jacobian X q)⁻¹ j l

/-- `get_physical_quad_points` and `get_physical_surface_quad_points` (`/repo/feax/fe.py:236-239`, `260-264`). -/
def quadPoint (r : RefElem K d n m) (X : Fin n → Fin d → K) (q : Fin m) (i : Fin d) : K := ∑ a, r.vals q a * X a i

/-- `convert_from_dof_to_quad` on one cell (`/repo/feax/fe.py:337-340`), and on one face (`/repo/feax/fe.py:362-367`). -/
def interpolate {vec : ℕ} (r : RefElem K d n m) (u : Fin n → Fin vec → K) (q : Fin m) (v : Fin vec) : K :=
  ∑ a, u a v * r.vals q a

/-- `sol_to_grad` on one cell (`/repo/feax/fe.py:386-389`). -/
def gradient {vec : ℕ} (r : RefElem K d n m) (X : Fin n → Fin d → K) (u : Fin n → Fin vec → K) (q : Fin m) (v : Fin vec)
    (k : Fin d) : K :=
  ∑ a, u a v * r.physGrads X q a k

/-- Second derivatives of an interpolated field, as the energy kernels form them from `shape_hessians`
(`/repo/feax/mechanics/tmc.py:169`, `/repo/feax/assembler.py:184`). -/
def hessian {vec : ℕ} (r : RefElem K d n m) (X : Fin n → Fin d → K) (u : Fin n → Fin vec → K) (q : Fin m) (v : Fin vec)
    (k l : Fin d) : K :=
  ∑ a, u a v * r.physHess X q a k l

/-- The vector whose length is `nanson_scale` before the factor `det · weight` (`/repo/feax/fe.py:215`): the reference normal
pulled back by `J⁻¹`. -/
def nansonVector (r : RefElem K d n m) (normal : Fin d → K) (X : Fin n → Fin d → K) (q : Fin m) (k : Fin d) : K :=
  ∑ j, normal j * (r.jacobian X q)⁻¹ j k

/-- `nanson_scale` (`/repo/feax/fe.py:213-217`); `norm` is the Euclidean norm. -/
def nansonScale (norm : (Fin d → K) → K) (r : RefElem K d n m) (normal : Fin d → K) (X : Fin n → Fin d → K) (q : Fin m) : K :=
  norm (r.nansonVector normal X q) * (r.jacobian X q).det * r.weights q

end RefElem

/-- The reference element of an element type at arbitrary points (`/repo/feax/fe.py:75`, `/repo/feax/basis.py:155-197`). -/
def EleType.refElem (e : EleType) {m : ℕ} (d : ℕ) (pts : Fin m → K × K × K) (weights : Fin m → K) :
    RefElem K d e.reOrder.length m where
  vals q a := (shapeValuesAt e (pts q).1 (pts q).2.1 (pts q).2.2).getD a 0
  grads q a j := (shapeGradAt e (pts q).1 (pts q).2.1 (pts q).2.2 j).getD a 0
  hess q a i j := (shapeHessAt e (pts q).1 (pts q).2.1 (pts q).2.2 i j).getD a 0
  weights := weights

end

end Verif.Model
