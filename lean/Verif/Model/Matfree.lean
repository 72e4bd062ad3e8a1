import Verif.Model.BC

/-!
# `feax.assembler`: the matrix-free operators

`jax.jvp` / `jax.vjp` of the residual are modelled by what differentiation does to the modelled
`get_res`: the local solution gather and the scatter are linear, so the directional derivative is the
same scatter with each kernel output replaced by (local Jacobian) * (local direction), where the
local Jacobian is the one `jax.jacfwd` returns to the assembled route.
Simplification: that JAX's differentiation of a kernel is exact is assumed, not modelled.
-/

namespace Verif.Model

variable {R : Type*} [CommRing R] {α β : Type*}

/-- Row-major `m x m` local matrix times local vector. -/
def localMul (m : ℕ) (jac v : List R) : List R :=
  (List.range m).map (fun a =>
    ((List.range m).map (fun b => jac.getD (a * m + b) 0 * v.getD b 0)).sum)

/-- Transposed local product. -/
def localMulT (m : ℕ) (jac v : List R) : List R :=
  (List.range m).map (fun b =>
    ((List.range m).map (fun a => jac.getD (a * m + b) 0 * v.getD a 0)).sum)

/-- Volume items paired with the local part of a global vector (`sol[cells]` gather,
`/repo/feax/assembler.py:1618-1667`). -/
def cellItems (p : Problem) (cellsIn : List α) (v : List R) : List (α × List R) :=
  cellsIn.zip (p.volInds.map (gather 0 v))

/-- The same for the boundary faces. -/
def faceItems (p : Problem) (facesIn : List (List β)) (v : List R) : List (List (β × List R)) :=
  List.zipWith (fun fs fc => fs.zip ((buildFaceInds p.vars fc).map (gather 0 v))) facesIn p.faceCells

/-- `jax.jvp(residual_flat, (sol,), (v,))` (`/repo/feax/assembler.py:1770-1772`). -/
def residualJvp (p : Problem) (kv : α → Local R) (kf : ℕ → β → Local R) (zv : α) (zf : β)
    (cellsIn : List α) (facesIn : List (List β)) (batch : ℕ) (v : List R) : List R :=
  getRes p (fun q => ⟨localMul p.ndof (kv q.1).jac q.2, (kv q.1).jac⟩)
    (fun k q => ⟨localMul p.ndof (kf k q.1).jac q.2, (kf k q.1).jac⟩) (zv, []) (zf, [])
    (cellItems p cellsIn v) (faceItems p facesIn v) batch

/-- `jax.vjp(residual_flat, sol)[1](w)` (`/repo/feax/assembler.py:1781-1794`). The adjoint of the
scatter is the gather of `w`; the adjoint of the local gather is the scatter. -/
def residualVjp (p : Problem) (kv : α → Local R) (kf : ℕ → β → Local R) (zv : α) (zf : β)
    (cellsIn : List α) (facesIn : List (List β)) (batch : ℕ) (w : List R) : List R :=
  getRes p (fun q => ⟨localMulT p.ndof (kv q.1).jac q.2, (kv q.1).jac⟩)
    (fun k q => ⟨localMulT p.ndof (kf k q.1).jac q.2, (kf k q.1).jac⟩) (zv, []) (zf, [])
    (cellItems p cellsIn w) (faceItems p facesIn w) batch

/-- `matvec` of `create_matfree_res_J_parametric` (`/repo/feax/assembler.py:1767-1774`):
`v_in = where(mask, 0, v)` if symmetric, `where(mask, v, K v_in)`. -/
def matfreeMatvec (p : Problem) (kv : α → Local R) (kf : ℕ → β → Local R) (zv : α) (zf : β)
    (cellsIn : List α) (facesIn : List (List β)) (batch : ℕ) (bc : DirichletBC R) (symmetric : Bool)
    (v : List R) : List R :=
  let vIn := if symmetric then List.zipWith (fun m x => if m then 0 else x) bc.mask v else v
  let kv' := residualJvp p kv kf zv zf cellsIn facesIn batch vIn
  List.zipWith (fun m xy => if m then xy.1 else xy.2) bc.mask (v.zip kv')

end Verif.Model
