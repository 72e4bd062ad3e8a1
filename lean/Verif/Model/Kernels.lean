import Verif.Model.Solve
import Mathlib.Algebra.BigOperators.Group.Finset.Basic

/-!
# `feax.assembler`: element kernels built from maps and weak forms

The user's physics is a function evaluated at one quadrature point; the kernels of this module
interpolate the local unknowns to the quadrature points, call it and integrate the result against the
test functions. Arrays are lists, indexed in the same order as in the code; `jax.vmap` over the
quadrature points is `List.map`. Values of the parameters at the quadrature points are an input
(`QPoint.iv`; how they are obtained is `Model/Vars.lean`).
-/

namespace Verif.Model

variable {K : Type*}

/-- What one variable's `FiniteElement` stores at one quadrature point of one cell (or face): shape
function values per node (`shape_vals`, `face_shape_vals`), physical gradients per node
(`shape_grads`), and the integration weight (`JxW`; on a face `nanson_scale`)
(`/repo/feax/fe.py:76-89`). -/
structure FePoint (K : Type*) where
  vals : List K
  grads : List (List K)
  jxw : K
deriving DecidableEq, Repr

/-- One quadrature point of one cell or face: position, parameter values, and the data of each
variable (all variables share the points, `/repo/feax/problem.py:255-267`). -/
structure QPoint (K : Type*) where
  x : List K
  iv : List K
  fe : List (FePoint K)
deriving DecidableEq, Repr

/-- `problem.shape_grads` at one point: the variables' rows concatenated along the node axis
(`/repo/feax/problem.py:273`). -/
def QPoint.shapeGrads (q : QPoint K) : List (List K) := (q.fe.map FePoint.grads).flatten

/-- `problem.selected_face_shape_vals` at one point (`/repo/feax/problem.py:303`). -/
def QPoint.shapeVals (q : QPoint K) : List K := (q.fe.map FePoint.vals).flatten

/-- `fe.v_grads_JxW` at one point (`/repo/feax/fe.py:88`): gradients times `JxW`.
Simplification: the broadcast axis of length one is dropped. -/
def FePoint.vGradsJxW [Mul K] (f : FePoint K) : List (List K) :=
  f.grads.map (fun g => g.map (fun x => x * f.jxw))

/-- `problem.v_grads_JxW` at one point (`/repo/feax/problem.py:275`). -/
def QPoint.vGradsJxW [Mul K] (q : QPoint K) : List (List K) := (q.fe.map FePoint.vGradsJxW).flatten

/-- `problem.JxW` at one point, one value per variable (`/repo/feax/problem.py:271`);
`nanson_scale` on a face (301). -/
def QPoint.jxw (q : QPoint K) : List K := q.fe.map FePoint.jxw

/-- `nc`: first node column of each variable (`/repo/feax/assembler.py:558-561`, `613-616`). -/
def nodeOffset (vars : List Var) (i : ℕ) : ℕ := ((vars.take i).map (fun v => v.nn)).sum

/-- `array[nc[i]:nc[i+1]]` along the node axis. -/
def nodeSlice {A : Type*} (vars : List Var) (i : ℕ) (xs : List A) : List A :=
  (xs.drop (nodeOffset vars i)).take (nodeOffset vars (i + 1) - nodeOffset vars i)

/-- `problem.unflatten_fn_dof` (`/repo/feax/problem.py:239-240`): split the local unknowns into one
`(num_nodes, vec)` array per variable. -/
def unflattenDof {A : Type*} (vars : List Var) (flat : List A) : List (List (List A)) :=
  unflatten (vars.map (fun v => { v with numNodes := v.nn })) flat

section ring
variable [CommRing K]

/-- `Operator.eval` at one point (`/repo/feax/assembler.py:129-146`). -/
def opEval (vec : ℕ) (cellSol : List (List K)) (vals : List K) : List K :=
  (List.range vec).map (fun c => ∑ a ∈ Finset.range cellSol.length,
    (cellSol.getD a []).getD c 0 * vals.getD a 0)

/-- `Operator.grad` at one point (`/repo/feax/assembler.py:148-164`). -/
def opGrad (vec dim : ℕ) (cellSol : List (List K)) (grads : List (List K)) : List (List K) :=
  (List.range vec).map (fun c => (List.range dim).map (fun k => ∑ a ∈ Finset.range cellSol.length,
    (cellSol.getD a []).getD c 0 * (grads.getD a []).getD k 0))

/-- `Operator.integrate_val` (`/repo/feax/assembler.py:289-313`): per point, the values, the shape
function values and the weight; the result is `(num_nodes, vec)`. -/
def integrateVal (vec nn : ℕ) (pts : List (List K × List K × K)) : List (List K) :=
  (List.range nn).map (fun a => (List.range vec).map (fun c =>
    (pts.map (fun p => p.1.getD c 0 * p.2.1.getD a 0 * p.2.2)).sum))

/-- `Operator.integrate_grad` (`/repo/feax/assembler.py:267-287`): per point, the tensor and the
gradients times `JxW`. -/
def integrateGrad (vec nn dim : ℕ) (pts : List (List (List K) × List (List K))) : List (List K) :=
  (List.range nn).map (fun a => (List.range vec).map (fun c =>
    (pts.map (fun p => ∑ k ∈ Finset.range dim,
      (p.1.getD c []).getD k 0 * (p.2.getD a []).getD k 0)).sum))

/-- Entrywise sum of two `(num_nodes, vec)` arrays. -/
def addRows (a b : List (List K)) : List (List K) := List.zipWith vadd a b

/-- A weak form at one quadrature point: values and gradients of every variable, position and
parameters to the mass terms and gradient terms of every variable (`get_weak_form`,
`/repo/feax/assembler.py:603-609`). -/
abbrev WeakForm (K : Type*) :=
  List (List K) → List (List (List K)) → List K → List K → List (List K) × List (List (List K))

/-- A surface weak form at one quadrature point (`/repo/feax/assembler.py:548-553`). -/
abbrev SurfaceForm (K : Type*) := List (List K) → List K → List K → List (List K)

/-- Default variable, for indexing. -/
def noVar : Var := ⟨0, 0, 0, []⟩

/-- The result of `weak_form` at one point of a cell whose unknowns are `sols`
(`/repo/feax/assembler.py:626-636`). -/
def weakAt (vars : List Var) (dim : ℕ) (wf : WeakForm K) (sols : List (List (List K))) (q : QPoint K) :
    List (List K) × List (List (List K)) :=
  wf ((List.range vars.length).map (fun i =>
      opEval (vars.getD i noVar).vec (sols.getD i []) (q.fe.getD i ⟨[], [], 0⟩).vals))
    ((List.range vars.length).map (fun i =>
      opGrad (vars.getD i noVar).vec dim (sols.getD i []) (nodeSlice vars i q.shapeGrads)))
    q.x q.iv

/-- `_build_kernel_from_weak_form` (`/repo/feax/assembler.py:591-647`). -/
def weakFormKernel (vars : List Var) (dim : ℕ) (wf : WeakForm K) (pts : List (QPoint K))
    (flat : List K) : List K :=
  let sols := unflattenDof vars flat
  let out := pts.map (fun q => (q, weakAt vars dim wf sols q))
  ((List.range vars.length).map (fun i =>
    let v := vars.getD i noVar
    (addRows
      (integrateVal v.vec v.nn (out.map (fun o =>
        (o.2.1.getD i [], (o.1.fe.getD i ⟨[], [], 0⟩).vals, o.1.jxw.getD i 0))))
      (integrateGrad v.vec v.nn dim (out.map (fun o =>
        (o.2.2.getD i [], nodeSlice vars i o.1.vGradsJxW))))).flatten)).flatten

/-- `_build_surface_kernel_from_weak_form` (`/repo/feax/assembler.py:538-588`). -/
def surfaceFormKernel (vars : List Var) (sf : SurfaceForm K) (pts : List (QPoint K)) (flat : List K) :
    List K :=
  let sols := unflattenDof vars flat
  let out := pts.map (fun q => (q, sf ((List.range vars.length).map (fun i =>
    opEval (vars.getD i noVar).vec (sols.getD i []) (nodeSlice vars i q.shapeVals))) q.x q.iv))
  ((List.range vars.length).map (fun i =>
    let v := vars.getD i noVar
    (integrateVal v.vec v.nn (out.map (fun o =>
      (o.2.getD i [], nodeSlice vars i o.1.shapeVals, o.1.jxw.getD i 0)))).flatten)).flatten

/-- `get_mass_kernel` (`/repo/feax/assembler.py:451-491`). -/
def massKernel (v : Var) (m : List K → List K → List K → List K) (pts : List (QPoint K))
    (flat : List K) : List K :=
  let sol := (unflattenDof [v] flat).getD 0 []
  (integrateVal v.vec v.nn (pts.map (fun q =>
    (m (opEval v.vec sol (q.fe.getD 0 ⟨[], [], 0⟩).vals) q.x q.iv,
      (q.fe.getD 0 ⟨[], [], 0⟩).vals, q.jxw.getD 0 0)))).flatten

/-- `get_laplace_kernel` (`/repo/feax/assembler.py:405-448`). -/
def laplaceKernel (v : Var) (dim : ℕ) (t : List (List K) → List K → List (List K))
    (pts : List (QPoint K)) (flat : List K) : List K :=
  let sol := (unflattenDof [v] flat).getD 0 []
  (integrateGrad v.vec v.nn dim (pts.map (fun q =>
    (t (opGrad v.vec dim sol (q.shapeGrads.take v.nn)) q.iv, q.vGradsJxW.take v.nn)))).flatten

/-- `get_surface_kernel` (`/repo/feax/assembler.py:494-535`). -/
def surfaceMapKernel (v : Var) (t : List K → List K → List K → List K) (pts : List (QPoint K))
    (flat : List K) : List K :=
  let sol := (unflattenDof [v] flat).getD 0 []
  (integrateVal v.vec v.nn (pts.map (fun q =>
    (t (opEval v.vec sol (q.shapeVals.take v.nn)) q.x q.iv,
      q.shapeVals.take v.nn, q.jxw.getD 0 0)))).flatten

/-- A kernel the user supplies ready made (`get_universal_kernel`, `get_extra_kernel`,
`get_universal_kernels_surface`). -/
abbrev RawKernel (K : Type*) := List (QPoint K) → List K → List K

/-- The physics hooks of a `Problem` subclass. `grad` stands for `jax.grad(energy_density)`; that
it is the derivative is a hypothesis where it matters (`/repo/feax/assembler.py:650-693`). -/
structure Physics (K : Type*) where
  universal : Option (RawKernel K) := none
  weakForm : Option (WeakForm K) := none
  mass : Option (List K → List K → List K → List K) := none
  tensor : Option (List (List K) → List K → List (List K)) := none
  energyGrad : Option (List (List K) → List K → List (List K)) := none
  extra : Option (RawKernel K) := none

/-- Adding two kernel results, where a term that is absent is the scalar `0.` it starts from. -/
def addTerm (a b : Option (List K)) : Option (List K) :=
  match a, b with
  | some x, some y => some (vadd x y)
  | some x, none => some x
  | none, b => b

/-- `create_volume_kernel` (`/repo/feax/assembler.py:650-735`). Errors: the `ValueError` of a
multi-variable problem with neither a universal kernel nor a weak form. The result `none` is the bare
scalar `0.`, returned when a single-variable problem defines nothing. -/
def createVolumeKernel (vars : List Var) (dim : ℕ) (ph : Physics K) :
    Except String (List (QPoint K) → List K → Option (List K)) :=
  match ph.universal with
  | some k => .ok (fun pts u => addTerm (some (k pts u)) (ph.extra.map (fun e => e pts u)))
  | none =>
    if vars.length > 1 then
      match ph.weakForm with
      | none => .error "ValueError"
      | some wf => .ok (fun pts u => addTerm (some (weakFormKernel vars dim wf pts u))
          (ph.extra.map (fun e => e pts u)))
    else
      let v := vars.getD 0 noVar
      let tensor := match ph.tensor with
        | some t => some t
        | none => ph.energyGrad
      .ok (fun pts u => addTerm (addTerm (ph.mass.map (fun m => massKernel v m pts u))
          (tensor.map (fun t => laplaceKernel v dim t pts u)))
        (ph.extra.map (fun e => e pts u)))

/-- Surface hooks of a `Problem` subclass: one entry per boundary in each list
(`/repo/feax/assembler.py:738-803`). -/
structure SurfacePhysics (K : Type*) where
  maps : List (List K → List K → List K → List K) := []
  forms : List (SurfaceForm K) := []
  universal : List (RawKernel K) := []

/-- `create_surface_kernel` (`/repo/feax/assembler.py:738-803`). `none` is the bare scalar `0.`. -/
def createSurfaceKernel (vars : List Var) (ph : SurfacePhysics K) (k : ℕ) (pts : List (QPoint K))
    (flat : List K) : Except String (Option (List K)) :=
  if vars.length > 1 then
    match ph.universal[k]? with
    | some u => .ok (some (u pts flat))
    | none =>
      match ph.forms[k]? with
      | some sf => .ok (some (surfaceFormKernel vars sf pts flat))
      | none =>
        if k < ph.maps.length then .error "ValueError"
        else .ok (some (List.replicate (numDofs vars) 0))
  else
    .ok (addTerm ((ph.maps[k]?).map (fun t => surfaceMapKernel (vars.getD 0 noVar) t pts flat))
      ((ph.universal[k]?).map (fun u => u pts flat)))

/-- `create_energy_fn` (`/repo/feax/assembler.py:1866-1958`): the density at every quadrature point
of every cell of variable 0, times `JxW`, summed. Simplification: the parameter values at the
quadrature points are given (`QPoint.iv`); `[]` when no parameters are passed. -/
def energyFn (v : Var) (dim : ℕ) (psi : List (List K) → List K → K) (cells : List (List (QPoint K)))
    (flat : List K) : K :=
  let u := reshapeRows v.numNodes v.vec flat
  ((cells.zip v.cells).map (fun c =>
    let cellU := c.2.map (fun node => u.getD node [])
    (c.1.map (fun q => psi (opGrad v.vec dim cellU (q.fe.getD 0 ⟨[], [], 0⟩).grads) q.iv
      * (q.fe.getD 0 ⟨[], [], 0⟩).jxw)).sum)).sum

end ring

end Verif.Model
