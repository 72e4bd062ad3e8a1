import Verif.Model.Adaptive

/-!
# `feax.mesh`: orientation check of tetrahedral meshes
-/

namespace Verif.Model

variable {K : Type*} [Field K]

/-- `np.cross` of two vectors of length three (`/repo/feax/mesh.py:214`). -/
def tetCross (a b : P3 K) : P3 K :=
  (a.2.1 * b.2.2 - a.2.2 * b.2.1, a.2.2 * b.1 - a.1 * b.2.2, a.1 * b.2.1 - a.2.1 * b.1)

/-- `quality` (`/repo/feax/mesh.py:210-216`). -/
def tetQuality (p1 p2 p3 p4 : P3 K) : K := dot3 (tetCross (sub3 p2 p1) (sub3 p3 p1)) (sub3 p4 p1)

/-- `check_mesh_TET4` (`/repo/feax/mesh.py:186-218`). A node number out of range reads some point of the mesh in JAX; here the origin
(the theorems ask for numbers in range). Rows without four entries fail when the row is unpacked (`/repo/feax/mesh.py:211`). -/
def checkMeshTet4 (points : List (P3 K)) (cells : List (List ℕ)) : Except PyErr (List K) :=
  if cells.all (fun row => row.length == 4) then
    .ok (cells.map fun row =>
      let p := fun a => points.getD (row.getD a 0) (0, 0, 0)
      tetQuality (p 0) (p 1) (p 2) (p 3))
  else .error .valueError

end Verif.Model
