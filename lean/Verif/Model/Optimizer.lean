import Verif.Model.Solution
import Mathlib.Algebra.Order.Ring.Defs
import Mathlib.Data.List.Range

/-!
# The topology optimisation driver (`/repo/feax/gene/optimizer.py`)

The inner optimiser (NLopt's MMA) is an arbitrary function `inner` of the whole state: how often it evaluates the objective and
which design it returns. Numbers are elements of an ordered ring, not floats. Printing and file output are left out.
-/

namespace Verif.Model

/-- `Continuation` (`/repo/feax/gene/optimizer.py:136-161`). Simplification: `update_every` is not negative (zero, which raises in
`value_at`, is excluded by the theorems). -/
structure Continuation (F : Type*) where
  initial : F
  final : F
  updateEvery : ℕ
  step : F

section
variable {F : Type*} [Ring F] [LinearOrder F]

/-- `Continuation.value_at` (`/repo/feax/gene/optimizer.py:162-168`); python's `//` is the floor. -/
def Continuation.valueAt (c : Continuation F) (iteration : ℤ) : F :=
  let n := max 0 (iteration / (c.updateEvery : ℤ))
  let v := c.initial + c.step * (n : F)
  if c.initial ≤ c.final then min v c.final else max v c.final

/-- `_next_continuation_change` (`/repo/feax/gene/optimizer.py:489-503`). -/
def nextContinuationChange (conts : List (String × Continuation F)) (maxIter iter : ℕ) : ℕ :=
  conts.foldl (fun nextChange kc =>
    let boundary := (iter / kc.2.updateEvery + 1) * kc.2.updateEvery
    if boundary < maxIter then
      if kc.2.valueAt iter ≠ kc.2.valueAt boundary then min nextChange boundary else nextChange
    else nextChange) maxIter

end

/-- One call of the objective by the inner optimiser: its number, the parameter values it saw, the optimiser object that made it and
how often the mesh had been replaced. -/
structure Evaluation (F : Type*) where
  number : ℕ
  params : List (String × F)
  optimiser : ℕ
  mesh : ℕ

/-- `AdaptiveConfig` (`/repo/feax/gene/optimizer.py:171-209`): the two numbers. -/
structure Adaptive where
  adaptEvery : ℕ
  nAdaptsMax : ℕ

/-- The local variables of `run` (`/repo/feax/gene/optimizer.py:327-341`, `506`), with the calls made so far (`evals`, `remeshes`: the
iteration counts at which the mesh was replaced). `optimisers` counts calls of `_create_mma`. -/
structure OptState (F X M : Type*) where
  iter : ℕ
  adapts : ℕ
  x : X
  mesh : M
  params : List (String × F)
  needNew : Bool
  optimisers : ℕ
  evals : List (Evaluation F)
  remeshes : List ℕ

/-- What `run` is given (`/repo/feax/gene/optimizer.py:271-284`). `inner s budget` is what `opt.optimize` does in state `s` with
`set_maxeval(budget)`: the number of evaluations and the design assigned to `x` (the old one after `RoundoffLimited`). `remesh` and
`transfer` are those of the adaptive configuration, the filter included. -/
structure OptSetup (F X M : Type*) where
  maxIter : ℕ
  conts : List (String × Continuation F)
  adaptive : Option Adaptive
  inner : OptState F X M → ℕ → ℕ × X
  remesh : M → X → M
  transfer : X → M → M → X

section
variable {F X M : Type*} [Ring F] [LinearOrder F]

/-- The parameters at the start of a pass (`/repo/feax/gene/optimizer.py:515-519`). -/
def paramsAt (conts : List (String × Continuation F)) (iter : ℕ) : List (String × F) :=
  conts.map fun kc => (kc.1, kc.2.valueAt iter)

/-- The end of the next epoch (`/repo/feax/gene/optimizer.py:526-534`). -/
def nextStop (c : OptSetup F X M) (s : OptState F X M) : ℕ :=
  let stop := min c.maxIter (nextContinuationChange c.conts c.maxIter s.iter)
  match c.adaptive with
  | none => stop
  | some a => if s.adapts < a.nAdaptsMax then min stop ((s.iter / a.adaptEvery + 1) * a.adaptEvery) else stop

/-- The start of a pass: parameters, and a new optimiser when needed (`/repo/feax/gene/optimizer.py:515-524`). -/
def beginPass (c : OptSetup F X M) (s : OptState F X M) : OptState F X M :=
  { s with params := paramsAt c.conts s.iter, needNew := false,
           optimisers := if s.needNew then s.optimisers + 1 else s.optimisers }

/-- `opt.optimize` (`/repo/feax/gene/optimizer.py:536-543`, objective `416-463`): `m` evaluations, each of which raises
`iter_count`. -/
def optimise (c : OptSetup F X M) (s : OptState F X M) : OptState F X M :=
  let r := c.inner s (nextStop c s - s.iter)
  { s with iter := s.iter + r.1, x := r.2,
           evals := s.evals ++ (List.range r.1).map fun i => ⟨s.iter + i + 1, s.params, s.optimisers, s.adapts⟩ }

/-- Whether the optimiser must be replaced for the next pass (`/repo/feax/gene/optimizer.py:545-550`). -/
def restartCheck (c : OptSetup F X M) (s : OptState F X M) : OptState F X M :=
  if s.iter < c.maxIter ∧ (c.conts.any fun kc => decide (kc.2.valueAt s.iter ≠ kc.2.valueAt ((s.iter : ℤ) - 1))) = true then
    { s with needNew := true }
  else s

/-- The remesh of a pass (`/repo/feax/gene/optimizer.py:552-584`). -/
def remeshCheck (c : OptSetup F X M) (s : OptState F X M) : OptState F X M :=
  match c.adaptive with
  | none => s
  | some a =>
    if s.adapts < a.nAdaptsMax ∧ s.iter < c.maxIter ∧ s.iter % a.adaptEvery = 0 then
      let m := c.remesh s.mesh s.x
      { s with mesh := m, x := c.transfer s.x s.mesh m, adapts := s.adapts + 1, needNew := true,
               remeshes := s.remeshes ++ [s.iter] }
    else s

/-- One pass of the loop (`/repo/feax/gene/optimizer.py:511-584`). -/
def optPass (c : OptSetup F X M) (s : OptState F X M) : OptState F X M :=
  remeshCheck c (restartCheck c (optimise c (beginPass c s)))

/-- The loop (`/repo/feax/gene/optimizer.py:511`); `fuel` bounds the number of passes. -/
def optLoop (c : OptSetup F X M) : ℕ → OptState F X M → OptState F X M
  | 0, s => s
  | fuel + 1, s => if s.iter < c.maxIter then optLoop c fuel (optPass c s) else s

/-- `run` from the initial design to the end of the loop (`/repo/feax/gene/optimizer.py:327-584`). Every pass that makes an
evaluation raises `iter`, so `maxIter` passes are enough. -/
def optRun (c : OptSetup F X M) (x : X) (mesh : M) : OptState F X M :=
  optLoop c c.maxIter
    ⟨0, 0, x, mesh, c.conts.map fun kc => (kc.1, kc.2.initial), true, 0, [], []⟩

end

/-! ### Constraints -/

/-- `type` of `constraint` (`/repo/feax/gene/optimizer.py:48`), and the internal `'ge'`. -/
inductive ConType
  | le | eq | ge
  deriving DecidableEq

/-- A method decorated with `@constraint` (`/repo/feax/gene/optimizer.py:48-81`): name, function with its gradient, target, type,
tolerance. -/
structure ConMethod (F V : Type*) where
  name : String
  fn : V → F
  grad : V → V
  target : F
  type : ConType
  tol : F

/-- `constraint` (`/repo/feax/gene/optimizer.py:75-81`): the check of the type string. -/
def constraintType (s : String) : Except PyErr ConType :=
  if s = "le" then .ok .le else if s = "eq" then .ok .eq else .error .valueError

/-- An entry of the list of constraints: name, function, gradient, target, type. -/
structure ConEntry (F V : Type*) where
  name : String
  fn : V → F
  grad : V → V
  target : F
  type : ConType

section
variable {F V : Type*} [Ring F]

/-- `_collect_constraints` (`/repo/feax/gene/optimizer.py:227-249`), the decorated methods being given. -/
def collectConstraints (ms : List (ConMethod F V)) : List (ConEntry F V) :=
  ms.flatMap fun m =>
    match m.type with
    | .eq => [⟨m.name, m.fn, m.grad, m.target + m.tol, .le⟩, ⟨m.name ++ "_lb", m.fn, m.grad, m.target - m.tol, .ge⟩]
    | t => [⟨m.name, m.fn, m.grad, m.target, t⟩]

/-- The functions given to `opt.add_inequality_constraint`, value and gradient
(`/repo/feax/gene/optimizer.py:467-486`). -/
def registered [Neg V] (es : List (ConEntry F V)) : List ((V → F) × (V → V)) :=
  es.flatMap fun e =>
    match e.type with
    | .le => [(fun x => e.fn x - e.target, fun x => e.grad x)]
    | .ge => [(fun x => -(e.fn x - e.target), fun x => -(e.grad x))]
    | .eq => []

/-- The value of the uniform initial design (`/repo/feax/gene/optimizer.py:352-356`). -/
def defaultInit [LinearOrder F] (half : F) (es : List (ConEntry F V)) : F :=
  es.foldl (fun d e => if e.type = .le then min d e.target else d) half

/-- `dict[k] = v` on an association list: the first entry with the key, or a new last entry. -/
def dictAppend {β : Type*} (h : List (String × List β)) (k : String) (v : β) : List (String × List β) :=
  h.map fun p => if p.1 = k then (p.1, p.2 ++ [v]) else p

/-- The constraint columns of the history before the first evaluation (`/repo/feax/gene/optimizer.py:346-350`): a dict, so one entry
for each distinct name. -/
def initHistory (es : List (ConEntry F V)) : List (String × List F) :=
  (es.map (·.name)).dedup.map fun n => (n, [])

/-- `con_vals` (`/repo/feax/gene/optimizer.py:429-431`): later entries overwrite. -/
def conVals (es : List (ConEntry F V)) (x : V) (name : String) : F :=
  ((es.reverse.find? fun e => e.name = name).map fun e => e.fn x).getD 0

/-- The columns after one evaluation (`/repo/feax/gene/optimizer.py:433-436`). -/
def logEvaluation (es : List (ConEntry F V)) (h : List (String × List F)) (x : V) : List (String × List F) :=
  (es.map (·.name)).foldl (fun h n => dictAppend h n (conVals es x n)) h

/-- The columns after evaluations at the designs `xs`. -/
def historyAfter (es : List (ConEntry F V)) (xs : List V) : List (String × List F) :=
  xs.foldl (logEvaluation es) (initHistory es)

end

/-! ### Passive regions -/

/-- `x[idx] = v` on numpy arrays for nonnegative indices (an index out of range raises). -/
def assignAll {F : Type*} (x : List F) (idx : List ℕ) (v : F) : Except PyErr (List F) :=
  if idx.all fun i => decide (i < x.length) then .ok (idx.foldl (fun l i => l.set i v) x) else .error .indexError

/-- The passive part of the initial design (`/repo/feax/gene/optimizer.py:357-369`). Simplification: nonnegative indices. -/
def pinInitial {F : Type*} [One F] (x : List F) (solid void : List ℕ) (lower : F) : Except PyErr (List F) := do
  let x ← assignAll x solid 1
  assignAll x void lower

/-- The bounds of `_create_mma` (`/repo/feax/gene/optimizer.py:402-414`); `n0` is the number of nodes of the first mesh. -/
def mmaBounds {F : Type*} [One F] (nVars n0 : ℕ) (bounds : F × F) (solid void : List ℕ) : Except PyErr (List F × List F) := do
  let lo := List.replicate nVars bounds.1
  let hi := List.replicate nVars bounds.2
  if nVars = n0 then
    let hi ← assignAll hi solid 1
    let lo ← assignAll lo solid 1
    let hi ← assignAll hi void bounds.1
    let lo ← assignAll lo void bounds.1
    return (lo, hi)
  else
    return (lo, hi)

end Verif.Model
