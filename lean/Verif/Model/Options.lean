import Verif.Model.Assembly
import Verif.Model.Solution
import Mathlib.Data.Rat.Defs

/-!
# Solver options, automatic selection, and the dispatch of `create_solver`

Callables and arrays held by options (preconditioner, `x0_fn`, near-null-space) are opaque identifiers. Log lines, prints and
warnings are not modelled.
-/

namespace Verif.Model

/-- What `jax.default_backend()` reports. -/
inductive Platform where
  | cpu | gpu | other
  deriving DecidableEq, Repr

/-- The runtime: platform and which optional packages import. -/
structure Runtime where
  platform : Platform
  spineax : Bool
  cholmod : Bool
  umfpack : Bool
  deriving DecidableEq, Repr

/-- `MatrixProperty` (`/repo/feax/solvers/options.py:160-185`). -/
inductive MatProp where
  | general | symmetric | spd
  deriving DecidableEq, Repr

/-- `CUDSSMatrixType` (`/repo/feax/solvers/options.py:262-271`). -/
inductive CudssType where
  | general | symmetric | hermitian | spd | hpd
  deriving DecidableEq, Repr

/-- A configuration value given as enum member, string or integer. -/
inductive CfgVal (E : Type) where
  | enum (e : E)
  | str (s : String)
  | int (z : ℤ)

/-- Conversion of `matrix_type` (`/repo/feax/solvers/options.py:340-356`). -/
def parseCudssType : CfgVal CudssType → Except PyErr CudssType
  | .enum e => .ok e
  | .str s =>
    match s.toUpper with
    | "GENERAL" => .ok .general
    | "SYMMETRIC" => .ok .symmetric
    | "HERMITIAN" => .ok .hermitian
    | "SPD" => .ok .spd
    | "HPD" => .ok .hpd
    | _ => .error .valueError
  | .int z =>
    if z = 0 then .ok .general else if z = 1 then .ok .symmetric else if z = 2 then .ok .hermitian
    else if z = 3 then .ok .spd else if z = 4 then .ok .hpd else .error .valueError

/-- Conversion of `matrix_view` (`/repo/feax/solvers/options.py:358-373`). -/
def parseCudssView : CfgVal MatrixView → Except PyErr MatrixView
  | .enum e => .ok e
  | .str s =>
    match s.toUpper with
    | "FULL" => .ok .full
    | "UPPER" => .ok .upper
    | "LOWER" => .ok .lower
    | _ => .error .valueError
  | .int z =>
    if z = 0 then .ok .full else if z = 1 then .ok .upper else if z = 2 then .ok .lower else .error .valueError

/-- `CUDSSOptions` (`/repo/feax/solvers/options.py:281-339`). -/
structure CudssOptions where
  matrixType : CudssType := .symmetric
  matrixView : MatrixView := .full
  deviceId : ℤ := 0
  deriving DecidableEq

/-- `CUDSSOptions(...)` (`/repo/feax/solvers/options.py:336-388`). -/
def CudssOptions.make (t : CfgVal CudssType) (v : CfgVal MatrixView) (dev : ℤ) : Except PyErr CudssOptions := do
  let t ← parseCudssType t
  let v ← parseCudssView v
  if t = .hermitian ∨ t = .hpd then .error .valueError
  else .ok { matrixType := t, matrixView := v, deviceId := dev }

/-- `SKSPARSEOptions` (`/repo/feax/solvers/options.py:401-425`). -/
structure SkOptions where
  vmapMethod : String := "broadcast_all"
  order : Option String := some "amd"
  lower : Bool := false
  deriving DecidableEq

/-- `SKSPARSEOptions(...)` (`/repo/feax/solvers/options.py:427-442`); `order = none` is Python's `None`. -/
def SkOptions.make (vmapMethod : String) (order : Option String) (lower : Bool) : Except PyErr SkOptions :=
  if order ∉ [some "default", some "best", some "metis", some "nesdis", some "amd", some "colamd", some "postordered",
    some "natural"] then .error .valueError
  else if vmapMethod ∉ ["expand_dims", "sequential", "broadcast_all"] then .error .valueError
  else .ok { vmapMethod := vmapMethod, order := order, lower := lower }

/-- `DirectSolverOptions` (`/repo/feax/solvers/options.py:591-620`). -/
structure DirectOptions where
  solver : String := "auto"
  cudss : CudssOptions := {}
  sk : SkOptions := {}
  reuse : Bool := false
  check : Bool := false
  threshold : ℚ := 1 / 10
  verbose : Bool := false
  deriving DecidableEq

/-- The check in `DirectSolverOptions.__post_init__` (`/repo/feax/solvers/options.py:620-631`). -/
def DirectOptions.valid (o : DirectOptions) : Bool :=
  o.solver ∈ ["auto", "cudss", "spsolve", "umfpack", "cholmod"]

/-- `detect_available_solver_backends` (`/repo/feax/solvers/options.py:71-150`). -/
def detectAvailable (rt : Runtime) (solver : String) : Except PyErr (List String) :=
  let hasCudss := decide (rt.platform = .gpu) && rt.spineax
  let hasCholmod := decide (rt.platform = .cpu) && rt.cholmod
  let hasUmfpack := decide (rt.platform = .cpu) && rt.umfpack
  if solver ≠ "auto" then
    if solver = "spsolve" then
      if rt.platform ≠ .cpu then .error .runtimeError else .ok ["spsolve"]
    else if solver = "cudss" then
      if rt.platform ≠ .gpu then .error .runtimeError
      else if !hasCudss then .error .runtimeError else .ok ["cudss"]
    else if solver = "cholmod" then
      if rt.platform ≠ .cpu then .error .runtimeError
      else if !hasCholmod then .error .runtimeError else .ok ["cholmod"]
    else if solver = "umfpack" then
      if rt.platform ≠ .cpu then .error .runtimeError
      else if !hasUmfpack then .error .runtimeError else .ok ["umfpack"]
    else .error .valueError
  else
    .ok ((if hasCholmod then ["cholmod"] else []) ++ (if hasCudss then ["cudss"] else [])
      ++ (if rt.platform = .cpu then ["spsolve"] else []) ++ (if hasUmfpack then ["umfpack"] else []))

/-- The CPU choice inside `resolve_direct_solver` (`/repo/feax/solvers/options.py:721-745`). -/
def chooseCpu (avail : List String) (mp : MatProp) : Except PyErr String :=
  if mp = .spd then
    if "cholmod" ∈ avail then .ok "cholmod"
    else if "umfpack" ∈ avail then .ok "umfpack"
    else if "spsolve" ∈ avail then .ok "spsolve"
    else .error .runtimeError
  else
    if "umfpack" ∈ avail then .ok "umfpack"
    else if "spsolve" ∈ avail then .ok "spsolve"
    else .error .runtimeError

/-- `mp_to_cudss` (`/repo/feax/solvers/options.py:692-696`). -/
def cudssTypeOf : MatProp → CudssType
  | .spd => .spd
  | .symmetric => .symmetric
  | .general => .general

/-- `resolve_direct_solver` (`/repo/feax/solvers/options.py:637-776`). -/
def resolveDirect (rt : Runtime) (o : DirectOptions) (mp : MatProp) (view : MatrixView) : Except PyErr DirectOptions :=
  if o.solver ≠ "auto" then
    match detectAvailable rt o.solver with
    | .error e => .error e
    | .ok _ => .ok o
  else
    match detectAvailable rt "auto" with
    | .error e => .error e
    | .ok avail =>
      if "cudss" ∈ avail then
        let mview := match view with
          | .upper => MatrixView.upper
          | .lower => MatrixView.lower
          | .full => o.cudss.matrixView
        .ok { o with solver := "cudss", cudss := { o.cudss with matrixType := cudssTypeOf mp, matrixView := mview } }
      else
        match chooseCpu avail mp with
        | .error e => .error e
        | .ok s =>
          let lower := if mp = .spd then (match view with | .upper => false | _ => true) else o.sk.lower
          .ok { o with solver := s, sk := { o.sk with lower := lower } }

/-- `KrylovSolverOptions` (`/repo/feax/solvers/options.py:783-830`). -/
structure KrylovOptions where
  solver : String := "auto"
  tol : ℚ := 1 / 10 ^ 10
  atol : ℚ := 1 / 10 ^ 10
  maxiter : ℕ := 10000
  preconditioner : Option ℕ := none
  useJacobi : Bool := false
  jacobiShift : ℚ := 1 / 10 ^ 12
  restart : Option ℕ := none
  x0Fn : Option ℕ := none
  check : Bool := false
  threshold : ℚ := 1 / 10
  verbose : Bool := false
  deriving DecidableEq

/-- The check in `KrylovSolverOptions.__post_init__` (`/repo/feax/solvers/options.py:823-829`). -/
def KrylovOptions.valid (o : KrylovOptions) : Bool := o.solver ∈ ["auto", "cg", "bicgstab", "gmres"]

/-- `mp_to_solver` (`/repo/feax/solvers/options.py:864-868`). -/
def krylovOf : MatProp → String
  | .spd => "cg"
  | .symmetric => "bicgstab"
  | .general => "gmres"

/-- `resolve_iterative_solver` (`/repo/feax/solvers/options.py:835-889`): the new object is built field by field and
`restart` is not among the fields passed. -/
def resolveIterative (o : KrylovOptions) (mp : MatProp) : KrylovOptions :=
  if o.solver ≠ "auto" then o
  else
    { solver := krylovOf mp, tol := o.tol, atol := o.atol, maxiter := o.maxiter, preconditioner := o.preconditioner,
      useJacobi := o.useJacobi, jacobiShift := o.jacobiShift, x0Fn := o.x0Fn, check := o.check, threshold := o.threshold,
      verbose := o.verbose }

/-- The GMRES restart length in use (`/repo/feax/solvers/common.py:252`): `options.restart or 20`. -/
def gmresRestart (o : KrylovOptions) : ℕ :=
  match o.restart with
  | some (k + 1) => k + 1
  | _ => 20

/-- `AMGSolverOptions` (`/repo/feax/solvers/options.py:896-1010`), the fields dispatch reads. -/
structure AmgOptions where
  solver : String := "auto"
  tol : ℚ := 1 / 10 ^ 8
  atol : ℚ := 1 / 10 ^ 10
  maxiter : ℕ := 500
  restart : Option ℕ := none
  rebuildEvery : Option ℤ := none
  check : Bool := false
  threshold : ℚ := 1 / 10
  verbose : Bool := false
  deriving DecidableEq

/-- What may be passed as `solver_options`. -/
inductive LinOpts where
  | direct (o : DirectOptions)
  | krylov (o : KrylovOptions)
  | amg (o : AmgOptions)
  | unsupported
  deriving DecidableEq

/-- The surroundings of a call of `create_solver`: runtime, storage view of the problem, the property that
`detect_matrix_property` finds on the sample operator (it depends on the elimination), the identifier of the AMG
preconditioner built from the sample, and whether `_validate_bc_pairing` accepts the conditions. -/
structure SolverEnv where
  rt : Runtime
  view : MatrixView
  property : Bool → MatProp
  amgId : ℕ
  pairingOk : Bool

/-- Arguments of `create_solver` (`/repo/feax/solver.py:48-61`); `ν` is the type of Newton options. -/
structure Request (ν : Type) where
  opts : Option LinOpts
  adj : Option LinOpts
  newton : Option ν
  linear : Bool
  P : Bool
  params : Bool
  extra : Bool
  symmetric : Bool

/-- What the returned solver does. -/
inductive Plan (ν : Type) where
  /-- one step of the reduced system -/
  | reduced (fwd adj : LinOpts)
  /-- one linear step -/
  | linear (fwd adj : LinOpts) (symmetric : Bool)
  /-- Newton iteration -/
  | newton (fwd adj : LinOpts) (cfg : Option ν) (symmetric : Bool)
  /-- Newton iteration with hierarchies rebuilt on the way; its own adjoint solve -/
  | newtonAmg (o : AmgOptions) (cfg : Option ν) (symmetric : Bool)
  /-- Newton iteration on bulk plus extra residual, assembled -/
  | extraAssembled (fwd adj : LinOpts) (cfg : Option ν) (symmetric : Bool)
  /-- Newton iteration on bulk plus extra residual, matrix-free -/
  | extraHybrid (fwd adj : LinOpts) (cfg : Option ν) (symmetric : Bool)

/-- Resolution of one side with a known property (`/repo/feax/solver.py:356-373`, `/repo/feax/solvers/linear.py:280-299`). -/
def resolveSide (env : SolverEnv) (mp : MatProp) : LinOpts → Except PyErr LinOpts
  | .direct o => (resolveDirect env.rt o mp env.view).map LinOpts.direct
  | .krylov o => .ok (.krylov (resolveIterative o mp))
  | o => .ok o

/-- `_is_resolvable_auto` (`/repo/feax/solver.py:308-310`). -/
def isAuto : LinOpts → Bool
  | .direct o => o.solver = "auto"
  | .krylov o => o.solver = "auto"
  | _ => false

/-- Resolution in `create_solver`: only unresolved options are touched (`/repo/feax/solver.py:356-373`). -/
def resolveAuto (env : SolverEnv) (mp : MatProp) (o : LinOpts) : Except PyErr LinOpts :=
  if isAuto o then resolveSide env mp o else .ok o

/-- `amg_to_krylov_options` (`/repo/feax/solvers/amg.py:228-275`). -/
def amgToKrylov (env : SolverEnv) (symmetric params : Bool) (o : AmgOptions) : Except PyErr KrylovOptions :=
  if !params then .error .valueError
  else
    .ok { solver := if o.solver = "auto" then (if env.property symmetric = .spd then "cg" else "gmres") else o.solver
          tol := o.tol, atol := o.atol, maxiter := o.maxiter, preconditioner := some env.amgId, restart := o.restart
          check := o.check, threshold := o.threshold, verbose := o.verbose }

/-- Lowering of AMG options on one side (`/repo/feax/solvers/linear.py:272-278`, `/repo/feax/solvers/newton.py:598-605`). -/
def lowerAmg (env : SolverEnv) (symmetric params : Bool) : LinOpts → Except PyErr LinOpts
  | .amg o => (amgToKrylov env symmetric params o).map LinOpts.krylov
  | o => .ok o

/-- One side of the reduced solve (`/repo/feax/solvers/reduced.py:118-150`, `186-197`): an explicit direct solver is taken as
it is; anything automatic is resolved for an SPD matrix. -/
def reducedSide (env : SolverEnv) : LinOpts → Except PyErr LinOpts
  | .direct o => if o.solver ≠ "auto" then .ok (.direct o) else (resolveDirect env.rt o .spd env.view).map LinOpts.direct
  | .krylov o => .ok (.krylov (resolveIterative o .spd))
  | .amg o => .ok (.amg { o with solver := if o.solver = "auto" then "cg" else o.solver })
  | .unsupported => .error .typeError

/-- `create_linear_solver` up to the choice of operators (`/repo/feax/solvers/linear.py:166-311`). -/
def createLinear {ν : Type} (env : SolverEnv) (fwd adj : LinOpts) (params symmetric : Bool) : Except PyErr (Plan ν) := do
  let f ← lowerAmg env symmetric params fwd
  let a ← lowerAmg env symmetric params adj
  let f ← resolveSide env .spd f
  let a ← resolveSide env .spd a
  .ok (.linear f a symmetric)

/-- The test for the rebuilding AMG loop (`/repo/feax/solvers/newton.py:588`). -/
def rebuildOptions : LinOpts → Option AmgOptions
  | .amg o => if o.rebuildEvery ≠ some 0 then some o else none
  | _ => none

/-- The paths with an extra residual (`/repo/feax/solvers/newton.py:611-660`, `413-419`). -/
def createExtra {ν : Type} (env : SolverEnv) (cfg : Option ν) (symmetric : Bool) (f a : LinOpts) : Except PyErr (Plan ν) :=
  match f with
  | .direct o =>
    if env.view ≠ .full then .error .valueError else .ok (.extraAssembled (.direct o) a cfg symmetric)
  | .krylov o => .ok (.extraHybrid (.krylov o) a cfg symmetric)
  | _ => .error .typeError

/-- `create_newton_solver` up to the choice of path (`/repo/feax/solvers/newton.py:543-660`). -/
def createNewton {ν : Type} (env : SolverEnv) (fwd adj : LinOpts) (cfg : Option ν) (params extra symmetric : Bool) :
    Except PyErr (Plan ν) :=
  match rebuildOptions fwd with
  | some o => .ok (.newtonAmg o cfg symmetric)
  | none => do
    let f ← lowerAmg env symmetric params fwd
    let a ← lowerAmg env symmetric params adj
    if extra then createExtra env cfg symmetric f a
    else .ok (.newton f a cfg symmetric)

/-- The reduced branch of `create_solver` (`/repo/feax/solver.py:274-291`). -/
def createReduced {ν : Type} (env : SolverEnv) (opts adj : Option LinOpts) : Except PyErr (Plan ν) := do
  let fwd := opts.getD (.krylov {})
  let a := adj.getD fwd
  if fwd = .unsupported ∨ a = .unsupported then .error .valueError
  else if !env.pairingOk then .error .valueError
  else
    let f ← reducedSide env fwd
    let a ← reducedSide env a
    .ok (.reduced f a)

/-- `create_solver` (`/repo/feax/solver.py:48-416`), without the `Solution` wrapper. Simplifications: options passed twice as
the same object are two equal values, and the sample assembly is assumed to succeed. -/
def createSolver {ν : Type} (env : SolverEnv) (r : Request ν) : Except PyErr (Plan ν) := do
  if r.extra && r.linear then .error .valueError
  else if r.extra && r.P then .error .valueError
  else if r.P then createReduced env r.opts r.adj
  else
    let fwd := r.opts.getD (.direct {})
    let a := r.adj.getD fwd
    let needsAuto := isAuto fwd || isAuto a
    if needsAuto && !r.params then .error .valueError
    else if fwd = .unsupported ∨ a = .unsupported then .error .typeError
    else
      let f ← resolveAuto env (env.property r.symmetric) fwd
      let a ← resolveAuto env (env.property r.symmetric) a
      if r.linear then createLinear env f a r.params true
      else createNewton env f a r.newton r.params r.extra r.symmetric

end Verif.Model
