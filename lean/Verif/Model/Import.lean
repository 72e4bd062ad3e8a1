import Mathlib.Data.List.Basic
import Mathlib.Data.List.Defs

/-!
# `feax/__init__.py`: what importing the package does to the environment
-/

namespace Verif.Model

/-- A word of `XLA_FLAGS`: `--xla_disable_hlo_passes=a,b,…` or anything else. -/
inductive XlaFlag where
  | disable (passes : List String)
  | other (s : String)
  deriving DecidableEq

/-- The environment variables read and written at import. Simplification: the values of the three `FEAX_*` variables are
given stripped and in lower case (the code applies `strip().lower()`); `XLA_FLAGS` is given as its words. -/
structure FeaxEnv where
  xlaPreallocate : Option String := none
  feaxPreallocate : Option String := none
  constantFolding : Option String := none
  xlaFlags : List XlaFlag := []
  x64 : Option String := none
  deriving DecidableEq

/-- `raw in ("1", "true", "yes", "on")`, false when unset (`/repo/feax/__init__.py:23-27`, `55-59`). -/
def envOn : Option String → Bool
  | none => false
  | some s => decide (s ∈ ["1", "true", "yes", "on"])

/-- `_resolve_x64_env` (`/repo/feax/__init__.py:94-98`). -/
def resolveX64 : Option String → Bool
  | none => true
  | some s => decide (s ∉ ["0", "false", "no", "off", ""])

/-- `"constant_folding" in flags` (`/repo/feax/__init__.py:65`): `mentions s` says that the word `s` contains it as a
substring; a word of the other kind contains it iff one of the listed passes does. -/
def flagMentions (mentions : String → Bool) : XlaFlag → Bool
  | .disable ps => ps.any mentions
  | .other s => mentions s

/-- The merge (`/repo/feax/__init__.py:66-74`): into the first disable flag, or as a new one at the end. -/
def mergeFolding : List XlaFlag → List XlaFlag
  | [] => [.disable ["constant_folding"]]
  | .disable ps :: t => .disable (ps ++ ["constant_folding"]) :: t
  | .other s :: t => .other s :: mergeFolding t

/-- The import-time effects on the environment (`/repo/feax/__init__.py:30-32`, `62-75`) and the precision chosen
(`/repo/feax/__init__.py:101`). -/
def importFeax (mentions : String → Bool) (e : FeaxEnv) : FeaxEnv × Bool :=
  let pre := match e.xlaPreallocate with
    | some s => some s
    | none => some (if envOn e.feaxPreallocate then "true" else "false")
  let flags := if envOn e.constantFolding then e.xlaFlags
    else if e.xlaFlags.any (flagMentions mentions) then e.xlaFlags else mergeFolding e.xlaFlags
  ({ e with xlaPreallocate := pre, xlaFlags := flags }, resolveX64 e.x64)

end Verif.Model
