import Mathlib.Algebra.BigOperators.Fin
import Mathlib.Algebra.Order.BigOperators.Group.Finset
import Verif.Model.Newton
import Verif.Model.Direct

/-!
# `jax.vmap` of the traced Newton solve

`B` solves run as lanes of one `while_loop`. `jax.vmap` of a `while_loop` whose condition differs between lanes runs the
body for all lanes as long as the condition holds for one of them, and keeps the old state of the lanes whose condition is
false (`/repo/feax/solvers/newton.py:981-983` relies on it). The linear solve is one call for all lanes.
-/

namespace Verif.Model.Newton

variable {K : Type*} [Field K] [LinearOrder K] {V W : Type*} {B : ℕ}

/-- `one_step` and `body` for all lanes at once (`/repo/feax/solvers/newton.py:956-969,1005-1012`): residual, line search and
norms lane by lane, the directions from one batched linear solve. `E b` holds the lane's parameters and boundary values. -/
def batchedBody (E : Fin B → NewtonEnv K V W) (directions : (Fin B → V) → Fin B → V) (o : NewtonOpts K)
    (s : Fin B → NState K V) : Fin B → NState K V :=
  let du := directions fun b => (s b).sol
  fun b =>
    let res := (E b).resf (s b).sol
    let r := armijo (E b) o (s b).sol (du b) res ((E b).norm res)
    ⟨r.sol, r.norm, (s b).it + 1, r.found⟩

/-- The body of the batched `while_loop`: lanes whose condition is false keep their state. -/
def maskedBody (E : Fin B → NewtonEnv K V W) (directions : (Fin B → V) → Fin B → V) (o : NewtonOpts K)
    (res00 : Fin B → Option K) (s : Fin B → NState K V) : Fin B → NState K V :=
  let new := batchedBody E directions o s
  fun b => if newtonCond o (res00 b) (s b) then new b else s b

/-- The batched `while_loop` (`/repo/feax/solvers/newton.py:1015` under `jax.vmap`). -/
def batchedLoop (E : Fin B → NewtonEnv K V W) (directions : (Fin B → V) → Fin B → V) (o : NewtonOpts K)
    (res00 : Fin B → Option K) (s : Fin B → NState K V) : Fin B → NState K V :=
  if h : ∃ b, newtonCond o (res00 b) (s b) = true then
    batchedLoop E directions o res00 (maskedBody E directions o res00 s) else s
termination_by ∑ b, (o.maxIter - (s b).it)
decreasing_by
  obtain ⟨b, hb⟩ := h
  refine Finset.sum_lt_sum (fun c _ => ?_) ⟨b, Finset.mem_univ b, ?_⟩
  · unfold maskedBody batchedBody
    by_cases hc : newtonCond o (res00 c) (s c) = true
    · simp only [hc, if_true]; omega
    · simp only [hc]; simp
  · unfold maskedBody batchedBody
    simp only [hb, if_true]
    simp only [newtonCond, Bool.and_eq_true, decide_eq_true_eq] at hb
    omega

/-- `jax.vmap(_forward)` (`/repo/feax/solvers/newton.py:994-1027`): the flag is traced, so nothing is raised. -/
def batchedForward (E : Fin B → NewtonEnv K V W) (directions : (Fin B → V) → Fin B → V) (o : NewtonOpts K)
    (sol0 : Fin B → V) : Fin B → V := fun b =>
  (batchedLoop E directions o (fun b => (E b).norm ((E b).resf (sol0 b)))
    (fun b => ⟨sol0 b, (E b).norm ((E b).resf (sol0 b)), 0, true⟩) b).sol

/-- SciPy's `spsolve` on the stacked block-diagonal system (`/repo/feax/solvers/direct/spsolve.py:47-61`), for lanes with one
unknown each: `j b` and `rhs b` are the tangent and the right-hand side of lane `b`. When the stacked matrix is exactly
singular SciPy warns and returns NaN in every entry. -/
def stackedScalarSolve [DecidableEq K] (j rhs : Fin B → Option K) : Fin B → Option K :=
  if ∃ b, j b = some 0 then fun _ => none
  else fun b => fop (· / ·) (rhs b) (j b)

/-- The directions of all lanes when the linear solve is a direct one (`/repo/feax/solvers/newton.py:956-969` under `jax.vmap`):
one call of the vmap rule with the tangents' values `vals b u` and the right-hand sides `rhs b u` of the lanes; the sparsity
pattern is that of the problem. An exception of the callback aborts the computation, here an empty direction. -/
def directDirections (batched : List (List K) → BatchValues K → List ℕ → List ℕ → Except PyErr (List (List K)))
    (offsets columns : List ℕ) (vals rhs : Fin B → List K → List K) (u : Fin B → List K) : Fin B → List K := fun b =>
  match vmapSolve batched B (.each (List.ofFn fun c => rhs c (u c))) (.each (List.ofFn fun c => vals c (u c)))
      (.same offsets) (.same columns) with
  | .ok X => X.getD b []
  | .error _ => []

end Verif.Model.Newton
