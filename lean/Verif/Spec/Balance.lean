import Verif.Spec.WeakForm

/-!
# Specification of forces, moments and consistency of shape functions

Nodal forces are entries of a global vector in the textbook DOF numbering; `X node l` is coordinate `l`
of a mesh node.
-/

namespace Verif.Spec

open Verif.Model (QPoint FePoint)

variable {K : Type*} [CommRing K]

/-- Force in direction `c` on node `node` of field `i`, read off a global vector. -/
def nodalForce (fs : List Field) (r : List K) (i node c : ℕ) : K := r.getD (dofNumber fs i node c) 0

/-- Sum of the nodal forces in direction `c`. -/
def totalForce (fs : List Field) (r : List K) (i c : ℕ) : K :=
  ∑ node ∈ Finset.range (fs.getD i ⟨0, 0⟩).numNodes, nodalForce fs r i node c

/-- Moment of the nodal forces in the plane `(k, l)` about the origin: `Σ (X_k F_l - X_l F_k)`. -/
def totalMoment (fs : List Field) (X : ℕ → ℕ → K) (r : List K) (i k l : ℕ) : K :=
  ∑ node ∈ Finset.range (fs.getD i ⟨0, 0⟩).numNodes,
    (X node k * nodalForce fs r i node l - X node l * nodalForce fs r i node k)

/-- At a point `x` of an element with the given nodes, the shape functions sum to one and interpolate the
position. -/
structure InterpolatesPosition (dim : ℕ) (X : ℕ → ℕ → K) (nodes : List ℕ) (N : List K) (x : List K) : Prop where
  one : ∑ a ∈ Finset.range nodes.length, N.getD a 0 = 1
  pos : ∀ l < dim, ∑ a ∈ Finset.range nodes.length, X (nodes.getD a 0) l * N.getD a 0 = x.getD l 0

/-- The gradients of the shape functions differentiate constants and coordinates correctly. -/
structure DifferentiatesPosition (dim : ℕ) (X : ℕ → ℕ → K) (nodes : List ℕ) (G : List (List K)) : Prop where
  zero : ∀ k < dim, ∑ a ∈ Finset.range nodes.length, (G.getD a []).getD k 0 = 0
  delta : ∀ l < dim, ∀ k < dim,
    ∑ a ∈ Finset.range nodes.length, X (nodes.getD a 0) l * (G.getD a []).getD k 0 = if l = k then 1 else 0

/-- Component `c` of the affine field `x ↦ A x + b`. -/
def affine (dim : ℕ) (A : ℕ → ℕ → K) (b : ℕ → K) (x : ℕ → K) (c : ℕ) : K :=
  ∑ l ∈ Finset.range dim, A c l * x l + b c

end Verif.Spec
