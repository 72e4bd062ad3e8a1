import Mathlib.Algebra.Order.Field.Basic
import Mathlib.Algebra.Order.Floor.Ring
import Mathlib.Data.Rat.Floor
import Verif.Model.Grid

/-!
# `feax.gene.narrowband`: optimality-criteria update, moving-band loop, resolution ladder

Floating point is replaced by an ordered field.
-/

namespace Verif.Model

section OC
variable {K : Type*} [Field K] [LinearOrder K]

/-- `onp.clip(x, lo, hi)` = `minimum(maximum(x, lo), hi)`. -/
def clip (x lo hi : K) : K := min (max x lo) hi

/-- Arguments of `oc_update` (`/repo/feax/gene/narrowband.py:35-36`). `pow` is `be ↦ be ** damping`; `eps` the
literal `1e-30`. -/
structure OCArgs (K : Type*) where
  rho : List K
  dc : List K
  dv : List K
  volfrac : K
  move : K
  xmin : K
  xmax : K
  pow : K → K
  tol : K
  l2Init : K
  eps : K

namespace OCArgs
variable (a : OCArgs K)

/-- The update of one entry for a multiplier (`/repo/feax/gene/narrowband.py:59-61`). -/
def entry (rho dc dv lmid : K) : K :=
  let be := max 0 (-dc / (dv * lmid + a.eps))
  let x := clip (rho * a.pow be) (rho - a.move) (rho + a.move)
  clip x a.xmin a.xmax

/-- `xnew` for a multiplier. Simplification: `rho`, `dc` and `dv` of equal length (numpy broadcasts or raises
otherwise). -/
def xnew (lmid : K) : List K :=
  (a.rho.zip (a.dc.zip a.dv)).map fun p => a.entry p.1 p.2.1 p.2.2 lmid

/-- `(xnew * dv).sum()` (`/repo/feax/gene/narrowband.py:62`). -/
def volume (x : List K) : K := (List.zipWith (· * ·) x a.dv).sum

/-- `target` (`/repo/feax/gene/narrowband.py:54`). -/
def target : K := a.volfrac * a.dv.sum

/-- The `while` loop (`/repo/feax/gene/narrowband.py:55-66`); returns the final `l1`, `l2` and `xnew`. `none`:
the fuel does not suffice. -/
def loop : ℕ → K → K → List K → Option (K × K × List K)
  | fuel, l1, l2, x =>
    if (l2 - l1) / (l1 + l2 + a.eps) > a.tol then
      match fuel with
      | 0 => none
      | n + 1 =>
        let lmid := (l1 + l2) / 2
        let x' := a.xnew lmid
        if a.volume x' > a.target then loop n lmid l2 x' else loop n l1 lmid x'
    else some (l1, l2, x)

/-- `oc_update` (`/repo/feax/gene/narrowband.py:51-66`) with the final multiplier interval. -/
def update (fuel : ℕ) : Option (K × K × List K) := a.loop fuel 0 a.l2Init a.rho

end OCArgs
end OC

/-! ## The resolution ladder -/

/-- Python's `round` (half to even). -/
def pyRound (q : ℚ) : ℤ :=
  let f := ⌊q⌋
  let r := q - f
  if r < 1 / 2 then f else if 1 / 2 < r then f + 1 else if f % 2 = 0 then f else f + 1

/-- One coarsening of `_res_ladder` (`/repo/feax/gene/narrowband.py:174`). -/
def coarsen (factor : ℚ) (floor : ℤ) (dims : List ℤ) : List ℤ :=
  dims.map fun d : ℤ => max floor (pyRound (d / factor))

/-- The loop of `_res_ladder` (`/repo/feax/gene/narrowband.py:173-178`), `n` the remaining iterations, the
ladder `head :: rest`. -/
def ladderLoop (factor : ℚ) (floor : ℤ) : ℕ → List ℤ → List (List ℤ) → List (List ℤ)
  | 0, head, rest => head :: rest
  | n + 1, head, rest =>
    let coarse := coarsen factor floor head
    if coarse = head then head :: rest else ladderLoop factor floor n coarse (head :: rest)

/-- `_res_ladder` (`/repo/feax/gene/narrowband.py:166-178`). `d / factor` is exact division. -/
def resLadder (dims : List ℤ) (nLevels : ℤ) (factor : ℚ) (floor : ℤ) : List (List ℤ) :=
  ladderLoop factor floor (nLevels - 1).toNat dims []

/-- What `run_narrowband_multires` runs on one level. -/
structure LevelPlan where
  dims : List ℤ
  /-- seeded from the previous level -/
  seeded : Bool
  gridUpdateStart : ℤ
  nIter : ℤ
  itOffset : ℤ
  deriving DecidableEq

/-- The level loop of `run_narrowband_multires` (`/repo/feax/gene/narrowband.py:233-255`): the arguments of the
successive `run_narrowband_oc` calls. -/
def levelPlans (nIter coarseIter gus : ℤ) : ℕ → ℤ → List (List ℤ) → List LevelPlan
  | _, _, [] => []
  | lvl, off, d :: rest =>
    let finest : Bool := rest.isEmpty
    let p : LevelPlan :=
      if lvl = 0 then ⟨d, false, gus, coarseIter, off⟩
      else ⟨d, true, 0, if finest then nIter else coarseIter, off⟩
    p :: levelPlans nIter coarseIter gus (lvl + 1) (off + p.nIter) rest

/-- `run_narrowband_multires` (`/repo/feax/gene/narrowband.py:226-256`), which levels are run how. -/
def multiresPlan (dims : List ℤ) (nLevels : ℤ) (factor : ℚ) (floor nIter : ℤ) (coarseIter : Option ℤ) (gus : ℤ) :
    List LevelPlan :=
  let ladder := resLadder dims nLevels factor floor
  let ci := coarseIter.getD (max 10 (nIter / 2))
  levelPlans nIter ci gus 0 0 ladder

/-! ## The moving-band loop -/

/-- What `cmg.create_solver(levels, b, jit=…)` was given: the active cells the levels and load were built for,
and the jit flag. -/
structure SolverHandle where
  builtFor : List ℕ
  jit : Bool
  deriving DecidableEq

/-- One iteration's record: active cells, the handle used, whether it was built in this iteration. -/
structure BandRecord where
  active : List ℕ
  handle : SolverHandle
  rebuilt : Bool
  deriving DecidableEq

/-- State of `run_narrowband_oc` between iterations. -/
structure BandState (D : Type*) where
  rho : D
  prevActive : Option (List ℕ)
  solver : Option SolverHandle
  jitOn : Bool

/-- `use_jit` (`/repo/feax/gene/narrowband.py:135`). -/
def useJitAt : Option ℕ → ℕ → Bool
  | none, _ => false
  | some j, it => decide (j ≤ it)

/-- The loop of `run_narrowband_oc` (`/repo/feax/gene/narrowband.py:125-159`), `n` remaining iterations from
iteration `it`. `band rho` is the dilated thresholded design with the kept cells, `full` all cells, `step` what
one solve with a given handle and active set, the sensitivity filter and `oc_update` make of the design.
`create_solver` is the only place a handle comes from. -/
def bandLoop {D : Type*} (full : List ℕ) (band : D → List ℕ) (step : SolverHandle → List ℕ → D → D) (gus : ℕ)
    (jitAfter : Option ℕ) : ℕ → ℕ → BandState D → List BandRecord × D
  | 0, _, s => ([], s.rho)
  | n + 1, it, s =>
    let active := if it < gus then full else band s.rho
    let useJit := useJitAt jitAfter it
    let changed := decide (s.prevActive ≠ some active)
    let built := changed || (useJit && !s.jitOn)
    let handle := if built then ⟨active, useJit⟩ else s.solver.getD ⟨[], false⟩
    let jitOn := if built then useJit else s.jitOn
    let rho := step handle active s.rho
    let r := bandLoop full band step gus jitAfter n (it + 1) ⟨rho, some active, some handle, jitOn⟩
    (⟨active, handle, built⟩ :: r.1, r.2)

/-- `run_narrowband_oc` (`/repo/feax/gene/narrowband.py:120-159`). -/
def runBand {D : Type*} (full : List ℕ) (band : D → List ℕ) (step : SolverHandle → List ℕ → D → D) (gus : ℕ)
    (jitAfter : Option ℕ) (nIter : ℕ) (rho0 : D) : List BandRecord × D :=
  bandLoop full band step gus jitAfter nIter 0 ⟨rho0, none, none, false⟩

end Verif.Model
