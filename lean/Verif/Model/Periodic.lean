import Verif.Model.Solve
import Mathlib.Algebra.Order.Field.Basic

/-!
# `feax.flat.pbc` and `feax.solvers.reduced`: periodic prolongations and the reduced solve
-/

namespace Verif.Model

/-- A BCOO matrix: entries `(row, column, value)` and shape (`/repo/feax/flat/pbc.py:182-189`).
Columns are integers because the code can produce a negative one. -/
structure Coo (R : Type*) where
  rows : ℕ
  cols : ℕ
  entries : List (ℕ × ℤ × R)
deriving DecidableEq, Repr

/-- `P @ v` (`/repo/feax/solvers/reduced.py:214-219`). Simplification: an entry whose column is out of
range contributes nothing; every theorem about a product proves the columns in range. -/
def Coo.matvec {R : Type*} [CommRing R] (P : Coo R) (v : List R) : List R :=
  (List.range P.rows).map (fun i => ((P.entries.filter (fun e => e.1 == i)).map (fun e =>
    if 0 ≤ e.2.1 then e.2.2 * v.getD e.2.1.toNat 0 else 0)).sum)

/-- `P.T @ w` (`/repo/feax/solvers/reduced.py:211`). -/
def Coo.rmatvec {R : Type*} [CommRing R] (P : Coo R) (w : List R) : List R :=
  (List.range P.cols).map (fun c : ℕ => ((P.entries.filter (fun e => e.2.1 == (c : ℤ))).map (fun e =>
    e.2.2 * w.getD e.1 0)).sum)

/-- `PeriodicPairing` (`/repo/feax/flat/pbc.py:22-57`). -/
structure PeriodicPairing (Pt : Type*) where
  master : Pt → Bool
  slave : Pt → Bool
  mapping : Pt → Pt
  vec : ℕ

section
variable {Pt : Type*}

/-- One pairing (`/repo/feax/flat/pbc.py:109-134`): master nodes, and for each the slave nodes near its
image (`near a b` stands for `norm(a - b) < 1e-5`). `np.array` of lists of unequal lengths is a
`ValueError`; the final lengths must agree (`AssertionError`). -/
def pairNodes (near : Pt → Pt → Bool) (points : List Pt) (bc : PeriodicPairing Pt) :
    Except PyErr (List ℕ × List ℕ) :=
  let nodesA := points.zipIdx.filter (fun q => bc.master q.1)
  let nodesB := points.zipIdx.filter (fun q => bc.slave q.1)
  let hits := nodesA.map (fun a => (nodesB.filter (fun b => near (bc.mapping a.1) b.1)).map (·.2))
  if hits.any (fun h => h.length != (hits.headD []).length) then .error .valueError
  else if nodesA.length ≠ hits.flatten.length then .error .assertionError
  else .ok (nodesA.map (·.2), hits.flatten)

/-- DOF pairs of one pairing (`/repo/feax/flat/pbc.py:139-151`). -/
def pairDofs (near : Pt → Pt → Bool) (points : List Pt) (vec : ℕ) (bc : PeriodicPairing Pt) :
    Except PyErr (List ℕ × List ℕ) :=
  match pairNodes near points bc with
  | .error e => .error e
  | .ok (a, b) => .ok (a.map (fun n => n * vec + bc.vec), b.map (fun n => n * vec + bc.vec))

/-- `reduced_inds_map[mask] = np.arange(M)` (`/repo/feax/flat/pbc.py:171`): entries equal to `1` are
numbered from left to right. -/
def numberFree : ℤ → List ℤ → List ℤ
  | _, [] => []
  | k, x :: xs => if x = 1 then k :: numberFree (k + 1) xs else x :: numberFree k xs

/-- The matrix from the DOF pairs (`/repo/feax/flat/pbc.py:153-189`). Out-of-range DOFs raise
`IndexError`. -/
def prolongationOf {R : Type*} [One R] (N : ℕ) (indsA indsB : List ℕ) : Except PyErr (Coo R) :=
  if indsB.any (fun b => decide (N ≤ b)) then .error .indexError
  else
    let map0 := scatterSet (List.replicate N (1 : ℤ)) indsB (indsA.map (fun a : ℕ => -((a : ℤ) + 1)))
    let M : ℤ := N - indsB.length
    if (map0.count 1 : ℤ) ≠ M then .error .valueError
    else
      let map1 := numberFree 0 map0
      if indsA.any (fun a => decide (N ≤ a)) then .error .indexError
      else .ok ⟨N, M.toNat, (List.range N).map (fun i =>
        (i, (let m := map1.getD i 0; if m < 0 then map1.getD (-m - 1).toNat 0 else m), 1))⟩

/-- `prolongation_matrix` (`/repo/feax/flat/pbc.py:61-189`). The `offset` argument is overwritten with
`0` (line 136) and therefore absent here. `np.hstack` of an empty list is a `ValueError`. -/
def prolongationMatrix {R : Type*} [One R] (near : Pt → Pt → Bool) (points : List Pt) (vec : ℕ)
    (pairings : List (PeriodicPairing Pt)) : Except PyErr (Coo R) :=
  match forCollect (pairDofs near points vec) pairings with
  | .error e => .error e
  | .ok [] => .error .valueError
  | .ok (q :: qs) =>
    prolongationOf (points.length * vec) (((q :: qs).map (·.1)).flatten) (((q :: qs).map (·.2)).flatten)

/-- Position of each independent node among the independent ones, `-1` for slaves
(`/repo/feax/flat/pbc.py:266-270`). -/
def reducedNodeIndex (isSlave : ℕ → Bool) (node : ℕ) : ℤ :=
  if isSlave node then -1 else (((List.range node).filter (fun k => !isSlave k)).length : ℤ)

/-- Pairing loop of `cyclic_prolongation_matrix` (`/repo/feax/flat/pbc.py:246-256`): exactly one hit
per master. -/
def cyclicPairs (near : Pt → Pt → Bool) (points : List Pt) (master slave : Pt → Bool)
    (mapping : Pt → Pt) : Except PyErr (List (ℕ × ℕ)) :=
  forCollect (fun a : Pt × ℕ =>
    match (points.zipIdx.filter (fun q => slave q.1)).filter (fun b => near (mapping a.1) b.1) with
    | [b] => .ok (a.2, b.2)
    | _ => .error .assertionError) (points.zipIdx.filter (fun q => master q.1))

/-- The dictionary `master_of_slave` (`/repo/feax/flat/pbc.py:272`): the last master of a slave wins. -/
def masterOf (pairs : List (ℕ × ℕ)) (s : ℕ) : Option ℕ :=
  (pairs.reverse.find? (fun q => q.2 == s)).map (·.1)

/-- `cyclic_prolongation_matrix` (`/repo/feax/flat/pbc.py:192-298`). `rot a b` is the rotation matrix;
its shape check (`ValueError`) is `rotDim = vec`. -/
def cyclicProlongation {R : Type*} [Zero R] [One R] [DecidableEq R] (near : Pt → Pt → Bool)
    (points : List Pt) (vec rotDim : ℕ) (master slave : Pt → Bool) (rot : ℕ → ℕ → R)
    (mapping : Pt → Pt) : Except PyErr (Coo R) :=
  if rotDim ≠ vec then .error .valueError
  else match cyclicPairs near points master slave mapping with
  | .error e => .error e
  | .ok pairs =>
    let isSlave := fun n => (pairs.map (·.2)).contains n
    let indep := (List.range points.length).filter (fun n => !isSlave n)
    let rows : Except PyErr (List (List (ℕ × ℤ × R))) := forCollect (fun node =>
      if isSlave node then
        let rm := reducedNodeIndex isSlave ((masterOf pairs node).getD 0)
        if rm < 0 then .error .assertionError
        else .ok ((List.range vec).flatMap (fun a =>
          ((List.range vec).filter (fun b => decide (rot a b ≠ 0))).map (fun b =>
            (node * vec + a, rm * vec + (b : ℕ), rot a b))))
      else .ok ((List.range vec).map (fun a =>
        (node * vec + a, reducedNodeIndex isSlave node * vec + a, 1)))) (List.range points.length)
    match rows with
    | .error e => .error e
    | .ok r => .ok ⟨points.length * vec, indep.length * vec, r.flatten⟩
end

/-! ## Unit cells -/

section
variable {K : Type*} [Field K] [LinearOrder K] {d : ℕ}

/-- `UnitCell` (`/repo/feax/flat/unitcell.py:20-40`): its node coordinates. Coordinates are exact, so
`np.isclose` is equality (simplification). -/
structure UnitCell (K : Type*) (d : ℕ) where
  points : List (Fin d → K)

namespace UnitCell

/-- `self.lb` (`/repo/feax/flat/unitcell.py:31-37`). -/
def lb (u : UnitCell K d) : Fin d → K := fun i => ((u.points.map (· i)).min?).getD 0

/-- `self.ub` (`/repo/feax/flat/unitcell.py:31-37`). -/
def ub (u : UnitCell K d) : Fin d → K := fun i => ((u.points.map (· i)).max?).getD 1

/-- Number of coordinates on the bounding box (`/repo/feax/flat/unitcell.py:158-160`). -/
def hits (u : UnitCell K d) (p : Fin d → K) : ℕ :=
  ((List.finRange d).filter (fun i => decide (p i = u.lb i) || decide (p i = u.ub i))).length

/-- `is_corner` (`/repo/feax/flat/unitcell.py:140-161`). -/
def isCorner (u : UnitCell K d) (p : Fin d → K) : Bool := u.hits p == d

/-- `is_edge` (`/repo/feax/flat/unitcell.py:163-189`). -/
def isEdge (u : UnitCell K d) (p : Fin d → K) : Bool := (u.hits p : ℤ) == (d : ℤ) - 1 && !u.isCorner p

/-- `face_function` (`/repo/feax/flat/unitcell.py:290-345`). -/
def faceFn (u : UnitCell K d) (axis : Fin d) (value : K) (exEdge exCorner : Bool) (p : Fin d → K) : Bool :=
  let onFace := decide (p axis = value)
  if exCorner && exEdge then onFace && (!u.isCorner p && !u.isEdge p)
  else if exCorner then onFace && !u.isCorner p
  else if exEdge then onFace && (!u.isEdge p && !u.isCorner p)
  else onFace

/-- `edge_function` (`/repo/feax/flat/unitcell.py:347-390`), `axes` and `values` zipped. -/
def edgeFn (u : UnitCell K d) (av : List (Fin d × K)) (exCorner : Bool) (p : Fin d → K) : Bool :=
  let cond := av.all (fun q => decide (p q.1 = q.2))
  if exCorner then cond && !u.isCorner p else cond

/-- `corner_function` (`/repo/feax/flat/unitcell.py:392-435`). -/
def cornerFn (values p : Fin d → K) : Bool := (List.finRange d).all (fun i => decide (p i = values i))

/-- Componentwise mean (`np.mean(pts, axis=0)`). Simplification: NaN for an empty list is `0`; the mean
of an empty list is only used in a mapping applied to no node. -/
def mean (l : List (Fin d → K)) : Fin d → K := fun i => (l.map (· i)).sum / (l.length : K)

/-- `mapping` (`/repo/feax/flat/unitcell.py:437-493`). -/
def mapping (u : UnitCell K d) (master slave : (Fin d → K) → Bool) :
    Except PyErr ((Fin d → K) → (Fin d → K)) :=
  let m := u.points.filter master
  let s := u.points.filter slave
  if m.length ≠ s.length then .error .valueError
  else .ok (fun p i => p i + (mean s i - mean m i))

/-- `PeriodicPairing(master, slave, mapping(master, slave), i) for i in range(vec)`
(`/repo/feax/flat/pbc.py:345-350`). -/
def pair (u : UnitCell K d) (vec : ℕ) (ms : ((Fin d → K) → Bool) × ((Fin d → K) → Bool)) :
    Except PyErr (List (PeriodicPairing (Fin d → K))) :=
  match u.mapping ms.1 ms.2 with
  | .error e => .error e
  | .ok f => .ok ((List.range vec).map (fun i => ⟨ms.1, ms.2, f, i⟩))

/-- The corners other than the origin corner, in the order of `itertools.product`
(`/repo/feax/flat/pbc.py:365-371`). -/
def otherCorners (u : UnitCell K d) : List (Fin d → K) :=
  ((List.range (2 ^ d)).map (fun c => fun i : Fin d =>
    if c / 2 ^ (d - 1 - i.1) % 2 = 0 then u.lb i else u.lb i + (u.ub i - u.lb i))).filter
    (fun c => !(cornerFn u.lb c))

/-- The corner pairs (`/repo/feax/flat/pbc.py:363-379,424-441`). -/
def cornerPairs (u : UnitCell K d) : List (((Fin d → K) → Bool) × ((Fin d → K) → Bool)) :=
  u.otherCorners.map (fun c => (cornerFn u.lb, cornerFn c))

end UnitCell

/-- The geometric pairs of `periodic_bc_3D` (`/repo/feax/flat/pbc.py:338-380`), in list order: corners,
edges, faces. Faces and edges are located at `0` and `L = ub - lb`. -/
def periodicPairs3D (u : UnitCell K 3) : List (((Fin 3 → K) → Bool) × ((Fin 3 → K) → Bool)) :=
  let L := fun i => u.ub i - u.lb i
  let faces := ([0, 1, 2] : List (Fin 3)).map (fun axis =>
    (u.faceFn axis 0 true false, u.faceFn axis (L axis) true false))
  let edges := ([(1, 2), (0, 2), (0, 1)] : List (Fin 3 × Fin 3)).flatMap (fun ax =>
    ([(L ax.1, 0), (L ax.1, L ax.2), (0, L ax.2)] : List (K × K)).map (fun v =>
      (u.edgeFn [(ax.1, 0), (ax.2, 0)] true, u.edgeFn [(ax.1, v.1), (ax.2, v.2)] true)))
  u.cornerPairs ++ edges ++ faces

/-- `periodic_bc_3D` (`/repo/feax/flat/pbc.py:301-380`), `dim = 3`. (The code builds faces first and
returns corners first; an error is an error in any order.) -/
def periodicBc3D (u : UnitCell K 3) (vec : ℕ) : Except PyErr (List (PeriodicPairing (Fin 3 → K))) :=
  match forCollect (u.pair vec) (periodicPairs3D u) with
  | .error e => .error e
  | .ok l => .ok l.flatten

/-- The geometric pairs of `periodic_bc_2D` (`/repo/feax/flat/pbc.py:404-443`). -/
def periodicPairs2D (u : UnitCell K 2) : List (((Fin 2 → K) → Bool) × ((Fin 2 → K) → Bool)) :=
  let L := fun i => u.ub i - u.lb i
  let edges := ([0, 1] : List (Fin 2)).map (fun axis =>
    (u.faceFn axis (u.lb axis) false true, u.faceFn axis (u.lb axis + L axis) false true))
  u.cornerPairs ++ edges

/-- `periodic_bc_2D` (`/repo/feax/flat/pbc.py:383-443`), `dim = 2`. -/
def periodicBc2D (u : UnitCell K 2) (vec : ℕ) : Except PyErr (List (PeriodicPairing (Fin 2 → K))) :=
  match forCollect (u.pair vec) (periodicPairs2D u) with
  | .error e => .error e
  | .ok l => .ok l.flatten

end

/-! ## Reduced solve -/

section
variable {R : Type*} {α β : Type*}

/-- `_validate_bc_pairing` (`/repo/feax/solvers/reduced.py:45-77`): the constrained DOFs reported as
invalid. -/
def badBcRows (P : Coo R) (bcRows : List ℕ) : List ℕ :=
  if bcRows.isEmpty then [] else
  let colOf := scatterSet (List.replicate P.rows (-1 : ℤ)) (P.entries.map (·.1)) (P.entries.map (·.2.1))
  let classSize := fun c : ℤ => (P.entries.filter (fun e => e.2.1 == c)).length
  let bcPerClass := fun c : ℤ =>
    (P.entries.filter (fun e => e.2.1 == c && bcRows.contains e.1)).length
  bcRows.filter (fun r =>
    let c := colOf.getD r (-1)
    decide (0 ≤ c) && decide (1 < classSize c) && decide (bcPerClass c < classSize c))

variable [CommRing R]

/-- `reduced_solve_fn` (`/repo/feax/solvers/reduced.py:205-219`): the operator
`v -> P.T (J (P v))` handed to the backend, the full solution. The assembled variant is
`Model.reducedSolverA` (`Model/ReducedAsm.lean`). -/
def reducedSolve (d : Discretization R α β) (backend : Backend R) (P : Coo R) (bc : DirichletBC R)
    (guess : List R) : List R :=
  let res := d.resBc bc guess
  let op := fun v => P.rmatvec (d.matfreeAt bc true guess (P.matvec v))
  let sol := backend (.fn op) (vneg (P.rmatvec res)) (List.replicate P.cols 0)
  vadd guess (P.matvec sol)

/-- `create_reduced_solver` and `solver_wrapper` (`/repo/feax/solvers/reduced.py:153-272`): validation of
the construction-time condition, default guess, optional override. -/
def reducedSolver (d : Discretization R α β) (backend : Backend R) (P : Coo R) (bc0 : DirichletBC R)
    (guess : Option (List R)) (bc : Option (DirichletBC R)) : Except PyErr (List R) :=
  if badBcRows P bc0.rows ≠ [] then .error .valueError
  else .ok (reducedSolve d backend P (bc.getD bc0) (guess.getD (zeroLikeGuess d.p.n bc0)))

/-- `create_x0` with a prolongation (`/repo/feax/solvers/common.py:33-41`). -/
def createX0P (P : Coo R) (bc : DirichletBC R) (sol : List R) : List R :=
  let z := List.replicate P.rows (0 : R)
  P.rmatvec (List.zipWith (· - ·) (scatterSet z bc.rows bc.vals)
    (scatterSet z bc.rows (gather 0 (P.matvec sol) bc.rows)))

end

end Verif.Model
