import Verif.Model.TimeLoop

/-!
# What a time-stepping run is supposed to do

Read off a history of rows `(step, time, state)`.
-/

namespace Verif.Spec

open Verif.Model

/-- `rows` is a history of `n` steps of `step` from `init` at `t0`: row `0` is the initial condition and
row `k+1` is the result of one call `step state_k t_k h_k`, with `t_{k+1} = t_k + h_k`. -/
structure IsHistory {S K : Type*} [Add K] (step : S → K → K → Except PyErr S) (init : S) (t0 : K)
    (rows : List (ℕ × K × S)) (h : List K) (n : ℕ) : Prop where
  length : rows.length = n + 1
  steps : h.length = n
  first : rows[0]? = some (0, t0, init)
  next : ∀ k < n, ∃ s t s' hk, rows[k]? = some (k, t, s) ∧ h[k]? = some hk ∧
    rows[k + 1]? = some (k + 1, t + hk, s') ∧ step s t hk = .ok s'

/-- The rows at step 0, at the multiples of `every`, and at the last step `n`. -/
def snapshotRows {S K : Type*} (rows : List (ℕ × K × S)) (every n : ℕ) : List (ℕ × K × S) :=
  rows.filter fun r => decide (every ∣ r.1 ∨ r.1 = n)

/-- The rows at the positive multiples of `every`. -/
def callbackRows {S K : Type*} (rows : List (ℕ × K × S)) (every : ℕ) : List (ℕ × K × S) :=
  rows.filter fun r => decide (0 < r.1 ∧ every ∣ r.1)

end Verif.Spec
