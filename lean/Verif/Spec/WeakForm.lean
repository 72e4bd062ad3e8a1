import Verif.Spec.Assembly
import Verif.Model.Kernels

/-!
# Specification of a weak form

Field values, gradients and virtual work at a quadrature point, from global vectors and the textbook
DOF numbering. Only the record types of the quadrature data and the types of the user's functions are
shared with the model.
-/

namespace Verif.Spec

open Verif.Model (QPoint FePoint WeakForm SurfaceForm)

variable {K : Type*} [CommRing K]

/-- Component `comp` of the value of field `i` at a point where the nodes' shape functions have values
`N`: `Σ_a w(node_a, comp) N_a`. -/
def fieldValue (fs : List Field) (w : List K) (i : ℕ) (nodes : List ℕ) (N : List K) (comp : ℕ) : K :=
  ∑ a ∈ Finset.range nodes.length, w.getD (dofNumber fs i (nodes.getD a 0) comp) 0 * N.getD a 0

/-- `∂/∂x_k` of component `comp` of field `i`: `Σ_a w(node_a, comp) ∂_k N_a`. -/
def fieldGrad (fs : List Field) (w : List K) (i : ℕ) (nodes : List ℕ) (G : List (List K))
    (comp k : ℕ) : K :=
  ∑ a ∈ Finset.range nodes.length,
    w.getD (dofNumber fs i (nodes.getD a 0) comp) 0 * (G.getD a []).getD k 0

/-- Data of field `i` at a quadrature point. -/
def fe (q : QPoint K) (i : ℕ) : FePoint K := q.fe.getD i ⟨[], [], 0⟩

/-- Values of all fields of `w` at a quadrature point of an element with the given nodes. -/
def valuesAt (fs : List Field) (nodes : List (List ℕ)) (w : List K) (q : QPoint K) : List (List K) :=
  (List.range fs.length).map (fun i => (List.range (fs.getD i ⟨0, 0⟩).vec).map (fun comp =>
    fieldValue fs w i (nodes.getD i []) (fe q i).vals comp))

/-- Gradients of all fields of `w`. -/
def gradsAt (fs : List Field) (nodes : List (List ℕ)) (dim : ℕ) (w : List K) (q : QPoint K) :
    List (List (List K)) :=
  (List.range fs.length).map (fun i => (List.range (fs.getD i ⟨0, 0⟩).vec).map (fun comp =>
    (List.range dim).map (fun k => fieldGrad fs w i (nodes.getD i []) (fe q i).grads comp k)))

/-- Integrand of the virtual work of a weak form at state `u` on test field `w`, times the weight:
`Σ_i (m_i(u) · w_i + g_i(u) : ∇w_i) JxW_i`. -/
def volumeWork (fs : List Field) (nodes : List (List ℕ)) (dim : ℕ) (wf : WeakForm K) (u w : List K)
    (q : QPoint K) : K :=
  let out := wf (valuesAt fs nodes u q) (gradsAt fs nodes dim u q) q.x q.iv
  ∑ i ∈ Finset.range fs.length,
    (∑ comp ∈ Finset.range (fs.getD i ⟨0, 0⟩).vec,
        (out.1.getD i []).getD comp 0 * fieldValue fs w i (nodes.getD i []) (fe q i).vals comp
      + ∑ comp ∈ Finset.range (fs.getD i ⟨0, 0⟩).vec, ∑ k ∈ Finset.range dim,
        ((out.2.getD i []).getD comp []).getD k 0
          * fieldGrad fs w i (nodes.getD i []) (fe q i).grads comp k) * (fe q i).jxw

/-- Integrand of the virtual work of a surface form: `Σ_i t_i(u) · w_i` times the surface weight. -/
def surfaceWork (fs : List Field) (nodes : List (List ℕ)) (sf : SurfaceForm K) (u w : List K)
    (q : QPoint K) : K :=
  let out := sf (valuesAt fs nodes u q) q.x q.iv
  ∑ i ∈ Finset.range fs.length,
    (∑ comp ∈ Finset.range (fs.getD i ⟨0, 0⟩).vec,
        (out.getD i []).getD comp 0 * fieldValue fs w i (nodes.getD i []) (fe q i).vals comp)
      * (fe q i).jxw

/-- Inner product of global vectors. -/
def inner (n : ℕ) (a b : List K) : K := ∑ d ∈ Finset.range n, a.getD d 0 * b.getD d 0

end Verif.Spec
