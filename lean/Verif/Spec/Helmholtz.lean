import Verif.Model.Helmholtz

/-!
# Specification of the Helmholtz filter: fields, integrals and the filter equation on a mesh
-/

namespace Verif.Spec

open Verif.Model

variable {K : Type} [Field K]

/-- The field with nodal values `u`, at quadrature point `q` of cell `c`: `Σ_a u(node_a) N_a`. -/
def fieldAt (s : FilterMesh K) (u : List K) (c q : ℕ) : K :=
  ∑ a ∈ Finset.range s.nn, u.getD ((s.cells.getD c []).getD a 0) 0 * (s.shapeVals.getD q []).getD a 0

/-- `∂/∂x_k` of that field. -/
def slopeAt (s : FilterMesh K) (u : List K) (c q k : ℕ) : K :=
  ∑ a ∈ Finset.range s.nn, u.getD ((s.cells.getD c []).getD a 0) 0 * ((s.grads c q).getD a []).getD k 0

/-- Integral over the mesh by the quadrature rule. -/
def integral (s : FilterMesh K) (f : ℕ → ℕ → K) : K :=
  ∑ c ∈ Finset.range s.cells.length, ∑ q ∈ Finset.range s.shapeVals.length, f c q * s.jxw c q

/-- `∫ u v`. -/
def l2 (s : FilterMesh K) (u v : List K) : K := integral s fun c q => fieldAt s u c q * fieldAt s v c q

/-- `∫ ∇u · ∇v`. -/
def dirichlet (s : FilterMesh K) (u v : List K) : K :=
  integral s fun c q => ∑ k ∈ Finset.range s.dim, slopeAt s u c q k * slopeAt s v c q k

/-- `ũ` solves `ũ - r² ∇²ũ = u` weakly, with natural boundary conditions, in the space of fields given by `V`. -/
structure Filtered (s : FilterMesh K) (V : List K → Prop) (r2 : K) (u ũ : List K) : Prop where
  mem : V ũ
  eq : ∀ v, V v → l2 s ũ v + r2 * dirichlet s ũ v = l2 s u v

/-- All nodal fields of the mesh. -/
def AllFields (s : FilterMesh K) (u : List K) : Prop := u.length = s.numNodes

/-- A consistent mesh: node numbers in range, shape functions that sum to one, gradients that sum to zero, weights that are
not negative. -/
structure FilterMeshOk [LinearOrder K] (s : FilterMesh K) : Prop where
  nn : 0 < s.nn
  cells : ∀ c ∈ s.cells, c.length = s.nn ∧ ∀ n ∈ c, n < s.numNodes
  vals : ∀ r ∈ s.shapeVals, r.length = s.nn ∧ r.sum = 1
  grads : ∀ c < s.cells.length, ∀ q < s.shapeVals.length, (s.grads c q).length = s.nn ∧
    ∀ k < s.dim, ∑ a ∈ Finset.range s.nn, ((s.grads c q).getD a []).getD k 0 = 0
  weights : ∀ c < s.cells.length, ∀ q < s.shapeVals.length, 0 ≤ s.jxw c q

/-- A space of nodal fields, closed under `u + t w`. -/
structure FieldSpace (s : FilterMesh K) (V : List K → Prop) : Prop where
  length : ∀ u, V u → u.length = s.numNodes
  combine : ∀ u w, V u → V w → ∀ t, V (List.zipWith (fun a b => a + t * b) u w)

/-- The fields whose values agree at the pairs of nodes. -/
def TiedFields (s : FilterMesh K) (tied : ℕ → ℕ → Prop) (u : List K) : Prop :=
  u.length = s.numNodes ∧ ∀ i j, tied i j → u.getD j 0 = u.getD i 0

/-- The filter equation sees every field of the space: only the zero field has energy `∫ u² + r² ∫ |∇u|²` zero. -/
def Visible (s : FilterMesh K) (V : List K → Prop) (r2 : K) : Prop :=
  ∀ u, V u → l2 s u u + r2 * dirichlet s u u = 0 → ∀ i < s.numNodes, u.getD i 0 = 0

/-- Two nodes belong to a common cell. -/
def ShareCell (s : FilterMesh K) (i j : ℕ) : Prop := ∃ c ∈ s.cells, i ∈ c ∧ j ∈ c

end Verif.Spec
