import Mathlib.Data.Finset.Basic

/-!
# What mesh generation leaves behind: Gmsh sessions and temporary files

A function is the sequence of its outside calls. Any of them may raise, as an oracle decides; cleaning up does not raise.
-/

namespace Verif.Model

/-- Outside calls that matter. -/
inductive SessOp
  /-- Any call that neither opens nor closes anything. -/
  | call
  /-- `gmsh.initialize()`: opens the session of the process; does nothing when it is open. -/
  | init
  /-- `gmsh.finalize()`: closes it. -/
  | fin
  /-- `tempfile.NamedTemporaryFile(..., delete=False)`: file number `k`. -/
  | temp (k : ℕ)
  /-- `os.unlink`. -/
  | unlink (k : ℕ)
deriving DecidableEq, Repr

/-- Function bodies. -/
inductive SessProg
  | done
  | op (o : SessOp) (rest : SessProg)
  /-- `if ...: cleanup; raise`. -/
  | guard (cleanup rest : SessProg)
  /-- `try: body finally: cleanup`. -/
  | tryFinally (body cleanup rest : SessProg)

/-- The process: whether a Gmsh session is open, and the temporary files. -/
structure SessWorld where
  session : Bool
  files : Finset ℕ
deriving DecidableEq

/-- Whether the `n`-th outside call raises, and whether the `n`-th test finds a problem. -/
structure SessOracle where
  fails : ℕ → Bool
  bad : ℕ → Bool

/-- Number of outside calls made, world, whether an exception is on its way. -/
structure SessState where
  n : ℕ
  world : SessWorld
  raised : Bool

/-- Effect of a call that does not raise. -/
def SessOp.effect : SessOp → SessWorld → SessWorld
  | .call, w => w
  | .init, w => { w with session := true }
  | .fin, w => { w with session := false }
  | .temp k, w => { w with files := insert k w.files }
  | .unlink k, w => { w with files := w.files.erase k }

/-- Whether a call may raise. Simplification: closing the session and deleting an existing file do not. -/
def SessOp.mayRaise : SessOp → Bool
  | .call | .init | .temp _ => true
  | .fin | .unlink _ => false

/-- Running a body. -/
def SessProg.run (O : SessOracle) : SessProg → SessState → SessState
  | .done, s => s
  | .op o rest, s =>
    if o.mayRaise && O.fails s.n then ⟨s.n + 1, s.world, true⟩
    else rest.run O ⟨s.n + 1, o.effect s.world, false⟩
  | .guard cleanup rest, s =>
    if O.bad s.n then ⟨(cleanup.run O s).n, (cleanup.run O s).world, true⟩ else rest.run O s
  | .tryFinally body cleanup rest, s =>
    let b := body.run O s
    let c := cleanup.run O b
    if b.raised || c.raised then ⟨c.n, c.world, true⟩ else rest.run O c

/-- `p; q`. -/
def SessProg.then : SessProg → SessProg → SessProg
  | .done, q => q
  | .op o rest, q => .op o (rest.then q)
  | .guard c rest, q => .guard c (rest.then q)
  | .tryFinally b c rest, q => .tryFinally b c (rest.then q)

/-- `k` calls in a row. -/
def SessProg.calls : ℕ → SessProg → SessProg
  | 0, q => q
  | k + 1, q => .op .call (calls k q)

/-- `box_mesh`, `sphere_mesh`, `cylinder_mesh`, `refine_mesh` (`/repo/feax/mesh.py:341-444,636-695,747-825,950-1011`) and
`adaptive_mesh`, `_generate` of `adaptive_box_mesh` (`/repo/feax/gene/adaptive.py:372-389,450-466`): `before` are the checks
made first, `body` the meshing calls, the user's geometry function included. -/
def sessionMesher (before body : SessProg) : SessProg :=
  before.then (.op .init (.op .call (.tryFinally body (.op .fin .done) .done)))

/-- `adaptive_box_mesh` (`/repo/feax/gene/adaptive.py:468-483`): one mesh and `retries` more, with sizes rescaled. -/
def retunedMesher (before body : SessProg) : ℕ → SessProg
  | 0 => sessionMesher before body
  | k + 1 => (sessionMesher before body).then (retunedMesher before body k)

/-- `extract_volume_mesh` (`/repo/feax/gene/mesh_extraction.py:159-240`): surface (`pre` calls, with the test for too few
points), STL file 0, `gmsh.initialize`, `mid` calls up to the list of surfaces, the test for none with its cleanup, `gen`
calls up to `generate(3)`, MSH file 1, `gmsh.write`, `gmsh.finalize`, reading back (2 calls), deleting both files.
`SDF.to_volume_mesh` (`/repo/feax/gene/sdf.py:198-282`) is the same sequence. -/
def extractVolume (pre mid gen : ℕ) : SessProg :=
  .calls pre <| .guard .done <|
  .op (.temp 0) <| .op .call <| .op .init <|
  .calls mid <| .guard (.op .fin (.op (.unlink 0) .done)) <|
  .calls gen <| .op (.temp 1) <| .op .call <| .op .fin <| .op .call <| .op .call <|
  .op (.unlink 0) <| .op (.unlink 1) .done

end Verif.Model
