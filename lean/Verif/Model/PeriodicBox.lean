import Mathlib.Algebra.Order.Field.Basic
import Mathlib.Algebra.Order.Group.Abs
import Mathlib.Data.Fin.VecNotation

/-!
# `feax.gene.adaptive`: periodic faces of an adaptive box mesh
-/

namespace Verif.Model

variable {K : Type*} [Field K]

/-- A surface of the Gmsh model and its bounding box (`/repo/feax/gene/adaptive.py:279-281`). -/
structure BoxFace (K : Type*) where
  tag : ℕ
  lo : Fin 3 → K
  hi : Fin 3 → K

/-- The axis and side a surface is put under (`/repo/feax/gene/adaptive.py:283-297`): `true` is `'slave'`;
the code's `eps` is 1e-6 (line 275). -/
def classifyFace [LinearOrder K] (eps : K) (origin len : Fin 3 → K) (f : BoxFace K) : Option (Fin 3 × Bool) :=
  let side (k : Fin 3) : Option (Fin 3 × Bool) :=
    if |f.lo k - origin k| < eps then some (k, false)
    else if |f.lo k - (origin k + len k)| < eps then some (k, true)
    else none
  if |f.hi 0 - f.lo 0| < eps then side 0
  else if |f.hi 1 - f.lo 1| < eps then side 1
  else if |f.hi 2 - f.lo 2| < eps then side 2
  else none

/-- The last surface put under a key (`face_pairs.setdefault(axis, {})[side] = tag`). -/
def faceUnder [LinearOrder K] (eps : K) (origin len : Fin 3 → K) (faces : List (BoxFace K)) (key : Fin 3 × Bool) : Option ℕ :=
  ((faces.filter fun f => classifyFace eps origin len f = some key).getLast?).map (·.tag)

/-- The `(slave, master)` pair for which `setPeriodic` is called on an axis (`/repo/feax/gene/adaptive.py:300-308`), or
none. -/
def periodicPair [LinearOrder K] (eps : K) (origin len : Fin 3 → K) (faces : List (BoxFace K)) (k : Fin 3) : Option (ℕ × ℕ) :=
  match faceUnder eps origin len faces (k, true), faceUnder eps origin len faces (k, false) with
  | some s, some m => some (s, m)
  | _, _ => none

/-- The affine map handed to Gmsh (`/repo/feax/gene/adaptive.py:303-305`), 16 numbers by rows. -/
def periodicAffine (len : Fin 3 → K) (k : Fin 3) : List K :=
  ((((((List.replicate 16 (0 : K)).set 0 1).set 5 1).set 10 1).set 15 1)).set (3 + k.val * 4) (len k)

/-- A 4 × 4 affine map by rows applied to a point, as Gmsh does. -/
def applyAffine (a : List K) (p : Fin 3 → K) (i : Fin 3) : K :=
  a.getD (4 * i.val) 0 * p 0 + a.getD (4 * i.val + 1) 0 * p 1 + a.getD (4 * i.val + 2) 0 * p 2 + a.getD (4 * i.val + 3) 0

end Verif.Model
