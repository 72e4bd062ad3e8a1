import Verif.Model.Kernels
import Verif.Model.Vars

/-!
# `feax.problem`, `feax.assembler`: which hooks of a `Problem` are used, and kernels that return a bare number

`Model/Assembly.lean` is for kernels with as many values as the cell has unknowns. Here the values are what the kernels of
`Model/Kernels.lean` really return, the bare scalar `0.` included, and reading past the end of an array does what JAX does
with it (the last entry is returned).
-/

namespace Verif.Model

/-- What `_validate_multi_variable_setup` looks at (`/repo/feax/problem.py:559-564`): whether the hooks return something;
for `get_universal_kernel` only whether the class has the method. -/
structure HookUse where
  numVars : ℕ
  tensorMap : Bool
  energyDensity : Bool
  massMap : Bool
  numSurfaceMaps : ℕ
  universalMethod : Bool
  weakForm : Bool
deriving DecidableEq, Repr

/-- `_validate_multi_variable_setup` (`/repo/feax/problem.py:544-593`): the names in the warning (none: no warning). -/
def validateMultiVariable (h : HookUse) : Except PyErr (List String) :=
  if h.numVars ≤ 1 then .ok []
  else if ¬ h.universalMethod ∧ ¬ h.weakForm then .error .valueError
  else .ok ((if h.tensorMap then ["get_tensor_map()"] else []) ++ (if h.energyDensity then ["get_energy_density()"] else []) ++
    (if h.massMap then ["get_mass_map()"] else []) ++ if h.numSurfaceMaps > 0 then ["get_surface_maps()"] else [])

section
variable {R : Type} [CommRing R]

/-- The values of the cells or faces in one array: `vmap` turns a bare scalar into one number per item
(`/repo/feax/assembler.py:1091-1094`). -/
def rawValues (xs : List (Option (List R))) : List R := (xs.map fun o => o.getD [0]).flatten

/-- `segment_sum(V[perm], sorted, n)` with the sorting permutation of the target numbers
(`/repo/feax/assembler.py:1096-1099`, `1398-1402`, `1509-1511`); JAX clamps positions past the end. -/
def scatterClamp (v : List R) (ids : List ℕ) (n : ℕ) : List R :=
  segmentSum ((argsort ids).map (clampGet 0 v)) (gather 0 ids (argsort ids)) n

/-- `get_res` (`/repo/feax/assembler.py:1091-1100`) on the values the kernels return. -/
def getResRaw (p : Problem) (vol : List (Option (List R))) (faces : List (List (Option (List R)))) : List R :=
  scatterClamp (rawValues vol ++ (faces.map rawValues).flatten) p.resDofs p.n

/-- The residual of the fused route (`/repo/feax/assembler.py:1483-1514`) on the values the kernels return: volume and
faces are summed separately. Simplification: all cells in one batch. -/
def getResFusedRaw (p : Problem) (vol : List (Option (List R))) (faces : List (List (Option (List R)))) : List R :=
  let r := scatterClamp (rawValues vol) (p.resDofs.take (p.numCells * p.ndof)) p.n
  if faces.isEmpty then r
  else vadd r (scatterClamp ((faces.map rawValues).flatten) (p.resDofs.drop (p.numCells * p.ndof)) p.n)

/-- `compute_face` (`/repo/feax/assembler.py:1038-1055`): the values of every face of every boundary; a boundary's faces are
given by their quadrature points and the unknowns of their cell. -/
def surfaceValues (vars : List Var) (ph : SurfacePhysics R) (first : ℕ) :
    List (List (List (QPoint R) × List R)) → Except String (List (List (Option (List R))))
  | [] => .ok []
  | fs :: rest => do
    let v ← fs.mapM fun f => createSurfaceKernel vars ph first f.1 f.2
    let vs ← surfaceValues vars ph (first + 1) rest
    return v :: vs

end
end Verif.Model
