import Verif.Model.Solution
import Mathlib.Data.List.Range

/-!
# `feax.distributed`: the launcher and the initialisation of its processes
-/

namespace Verif.Model

/-- The environment variables a process sees (`/repo/feax/distributed/__init__.py:36-41`, `138-143`, `151-155`).
Simplification: numbers are kept as numbers (the launcher formats them, `initialize` parses them with `int`). -/
structure JaxEnv where
  coordAddr : Option String := none
  coordPort : Option ℕ := none
  numProcesses : Option ℕ := none
  processId : Option ℕ := none
  deriving DecidableEq

/-- The arguments of `jax.distributed.initialize`. -/
structure InitCall where
  host : String
  port : ℕ
  numProcesses : ℕ
  processId : ℕ
  deriving DecidableEq

/-- `initialize` (`/repo/feax/distributed/__init__.py:26-44`): `none` is the answer `False` (single-node mode); the
address handed over is `coord:1234`. -/
def distInitialize (env : JaxEnv) : Except PyErr (Option InitCall) :=
  match env.coordAddr with
  | none => .ok none
  | some coord =>
    if coord = "" then .ok none
    else
      match env.numProcesses with
      | none => .error .keyError
      | some n =>
        match env.processId with
        | none => .error .keyError
        | some i => .ok (some ⟨coord, 1234, n, i⟩)

/-- A node of the configuration file (`/repo/feax/distributed/__init__.py:101-107`, `129-131`). -/
structure NodeCfg where
  host : Option String
  sshKey : String := ""
  container : String := "feax"
  deriving DecidableEq

/-- The configuration file (`/repo/feax/distributed/__init__.py:118-124`). -/
structure ClusterCfg where
  coordinator : Option String
  port : Option ℕ := none
  nodes : List NodeCfg := []

/-- A started process: the words of the `ssh` call (empty for the local one), the environment it is given, the script
arguments it receives, and whether it reads the script from standard input. -/
structure Proc where
  ssh : List String
  container : Option String
  env : JaxEnv
  args : List String
  fromStdin : Bool
  deriving DecidableEq

/-- One iteration of the worker loop (`/repo/feax/distributed/__init__.py:128-147`). -/
def workerProc (coordinator : String) (port n i : ℕ) (node : NodeCfg) : Except PyErr Proc :=
  match node.host with
  | none => .error .keyError
  | some host =>
    .ok { ssh := ["ssh"] ++ (if node.sshKey ≠ "" then ["-i", node.sshKey] else [])
            ++ ["-o", "StrictHostKeyChecking=no", "admin@" ++ host]
          container := some node.container
          env := ⟨some coordinator, some port, some n, some i⟩
          args := []
          fromStdin := true }

/-- The worker loop: the processes started so far, and how it ended. -/
def startWorkers (coordinator : String) (port n : ℕ) : ℕ → List NodeCfg → List Proc × Except PyErr Unit
  | _, [] => ([], .ok ())
  | i, node :: rest =>
    match workerProc coordinator port n i node with
    | .error e => ([], .error e)
    | .ok p =>
      let r := startWorkers coordinator port n (i + 1) rest
      (p :: r.1, r.2)

/-- `_launch` (`/repo/feax/distributed/__init__.py:118-166`) after the configuration is read: the processes started, in
order, and either the error that ended the launcher or its exit status. `status` is the exit status of a process. The
local process inherits the environment with four variables set. -/
def distLaunch (cfg : ClusterCfg) (args : List String) (status : Proc → ℕ) : List Proc × Except PyErr ℕ :=
  match cfg.coordinator with
  | none => ([], .error .keyError)
  | some coordinator =>
    let port := cfg.port.getD 1234
    let n := 1 + cfg.nodes.length
    let w := startWorkers coordinator port n 1 cfg.nodes
    match w.2 with
    | .error e => (w.1, .error e)
    | .ok _ =>
      let main : Proc := ⟨[], none, ⟨some coordinator, some port, some n, some 0⟩, args, false⟩
      (w.1 ++ [main], .ok (status main))

end Verif.Model
