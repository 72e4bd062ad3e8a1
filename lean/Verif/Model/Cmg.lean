import Verif.Model.Grid
import Mathlib.Analysis.SpecialFunctions.Pow.Real
import Mathlib.LinearAlgebra.Matrix.NonsingularInverse

/-!
# `feax.solvers.cmg`: geometric multigrid on a structured narrow band

Numbers are reals. A DOF `3 n + c` is the pair `(n, c)` and a DOF array is a function of the pair, zero beyond the
array; the local DOF `3 a + c` of a cell is a pair as well.
-/

namespace Verif.Model.Cmg
open Matrix

/-! ## Element stiffness -/

/-- `_CORNERS[a]` (`/repo/feax/solvers/cmg.py:34`): `dz` runs fastest. -/
def corner (a : Fin 8) : ℕ × ℕ × ℕ := (a / 4, a / 2 % 2, a % 2)

/-- `signs[a]` (`/repo/feax/solvers/cmg.py:54`). -/
noncomputable def sign (a : Fin 8) : ℝ × ℝ × ℝ :=
  (2 * ((corner a).1 : ℝ) - 1, 2 * ((corner a).2.1 : ℝ) - 1, 2 * ((corner a).2.2 : ℝ) - 1)

/-- `dN` at a point (`/repo/feax/solvers/cmg.py:59-64`). -/
noncomputable def shapeGrad (xi eta ze : ℝ) : Matrix (Fin 3) (Fin 8) ℝ := fun k a =>
  let s := sign a
  match k with
  | 0 => 1 / 8 * s.1 * (1 + s.2.1 * eta) * (1 + s.2.2 * ze)
  | 1 => 1 / 8 * s.2.1 * (1 + s.1 * xi) * (1 + s.2.2 * ze)
  | 2 => 1 / 8 * s.2.2 * (1 + s.1 * xi) * (1 + s.2.1 * eta)

/-- `corners` as an array (`/repo/feax/solvers/cmg.py:53`). -/
def cornerMat : Matrix (Fin 8) (Fin 3) ℝ := fun a k =>
  match k with
  | 0 => ((corner a).1 : ℝ)
  | 1 => ((corner a).2.1 : ℝ)
  | 2 => ((corner a).2.2 : ℝ)

/-- `B` (`/repo/feax/solvers/cmg.py:68-72`) from the gradients `dNxyz`. -/
def bMat (G : Matrix (Fin 3) (Fin 8) ℝ) : Matrix (Fin 6) (Fin 8 × Fin 3) ℝ := fun r ac =>
  match r, ac.2 with
  | 0, 0 => G 0 ac.1
  | 1, 1 => G 1 ac.1
  | 2, 2 => G 2 ac.1
  | 3, 0 => G 1 ac.1
  | 3, 1 => G 0 ac.1
  | 4, 1 => G 2 ac.1
  | 4, 2 => G 1 ac.1
  | 5, 0 => G 2 ac.1
  | 5, 2 => G 0 ac.1
  | _, _ => 0

/-- `D` (`/repo/feax/solvers/cmg.py:48-52`). -/
noncomputable def dMat (nu E : ℝ) : Matrix (Fin 6) (Fin 6) ℝ :=
  let lam := E * nu / ((1 + nu) * (1 - 2 * nu))
  let mu := E / (2 * (1 + nu))
  !![lam + 2 * mu, lam, lam, 0, 0, 0;
     lam, lam + 2 * mu, lam, 0, 0, 0;
     lam, lam, lam + 2 * mu, 0, 0, 0;
     0, 0, 0, mu, 0, 0;
     0, 0, 0, 0, mu, 0;
     0, 0, 0, 0, 0, mu]

/-- `gp` (`/repo/feax/solvers/cmg.py:55-56`). -/
noncomputable def gaussPoints : List (ℝ × ℝ × ℝ) :=
  let g := 1 / Real.sqrt 3
  [-g, g].flatMap fun a => [-g, g].flatMap fun b => [-g, g].map fun c => (a, b, c)

/-- `make_KE_3d` (`/repo/feax/solvers/cmg.py:45-74`). -/
noncomputable def makeKE (nu E : ℝ) : Matrix (Fin 8 × Fin 3) (Fin 8 × Fin 3) ℝ :=
  (gaussPoints.map fun p =>
    let dN := shapeGrad p.1 p.2.1 p.2.2
    let J := dN * cornerMat
    let B := bMat (J⁻¹ * dN)
    J.det • (Bᵀ * dMat nu E * B)).sum

/-! ## Levels -/

/-- `_cap` (`/repo/feax/solvers/cmg.py:77-79`), positive bucket; the quotient is
taken exactly, not in floating point. -/
def cap (n bucket : ℕ) : ℕ := (max 1 n + bucket - 1) / bucket * bucket

/-- `auto_levels` (`/repo/feax/solvers/cmg.py:82-88`); `none` when the loop is still running after `fuel`
passes. -/
def autoLevels (floor : ℤ) : ℕ → ℕ × ℕ × ℕ → Option ℕ
  | 0, _ => none
  | fuel + 1, d =>
    if floor < ((min d.1 (min d.2.1 d.2.2) : ℕ) : ℤ) then
      (autoLevels floor fuel ((d.1 + 1) / 2, (d.2.1 + 1) / 2, (d.2.2 + 1) / 2)).map (· + 1)
    else some 1

/-- The arrays of one level that do not depend on the design (`/repo/feax/solvers/cmg.py:156-176`): cells, nodes,
and the positions `ncid` of the corners of each cell among the nodes. -/
structure Level where
  g : Grid
  cells : List ℕ
  nodes : List ℕ
  ncid : List (List ℕ)

/-- `cn`, one cell (`/repo/feax/solvers/cmg.py:157-161`). -/
def cornerNodes (g : Grid) (e : ℕ) : List ℕ :=
  let nyz := g.ny * g.nz
  let ex := e / nyz
  let rem := e % nyz
  let ey := rem / g.nz
  let ez := rem % g.nz
  (List.finRange 8).map fun a =>
    (ex + (corner a).1) * ((g.ny + 1) * (g.nz + 1)) + (ey + (corner a).2.1) * (g.nz + 1) + (ez + (corner a).2.2)

/-- One pass of the loop of `build` (`/repo/feax/solvers/cmg.py:157-176`). -/
def mkLevel (g : Grid) (cells : List ℕ) : Level :=
  let cn := cells.map (cornerNodes g)
  let nodes := unique cn.flatten
  ⟨g, cells, nodes, cn.map fun c => c.map (searchsorted nodes)⟩

/-- Coarse dimensions (`/repo/feax/solvers/cmg.py:180`). -/
def coarseGrid (g : Grid) : Grid := ⟨(g.nx + 1) / 2, (g.ny + 1) / 2, (g.nz + 1) / 2⟩

/-- The coarse cell over a cell (`/repo/feax/solvers/cmg.py:181`, `379-383`). -/
def parentCell (g : Grid) (e : ℕ) : ℕ :=
  let c := coarseGrid g
  let ex := e / (g.ny * g.nz)
  let rem := e % (g.ny * g.nz)
  (ex / 2) * (c.ny * c.nz) + (rem / g.nz / 2) * c.nz + (rem % g.nz / 2)

/-- The levels from a grid and its sorted cells on (`/repo/feax/solvers/cmg.py:156-182`). -/
def buildFrom : ℕ → Grid → List ℕ → List Level
  | 0, _, _ => []
  | n + 1, g, cells => mkLevel g cells :: buildFrom n (coarseGrid g) (unique (cells.map (parentCell g)))

/-- `build` (`/repo/feax/solvers/cmg.py:152-185`) with `L` levels: the cells are sorted, not made unique. The transfers
are below. -/
def build (L : ℕ) (g : Grid) (cells : List ℕ) : List Level := buildFrom L g (cells.insertionSort (· ≤ ·))

/-- `ni, nj, nk` (`/repo/feax/solvers/cmg.py:170`). -/
def nodeTriple (g : Grid) (n : ℕ) : ℕ × ℕ × ℕ :=
  let nn1 := (g.ny + 1) * (g.nz + 1)
  (n / nn1, n % nn1 / (g.nz + 1), n % nn1 % (g.nz + 1))

/-- `color` (`/repo/feax/solvers/cmg.py:173`). -/
def colorOf (g : Grid) (n : ℕ) : ℕ :=
  let t := nodeTriple g n
  (t.1 % 2) * 4 + (t.2.1 % 2) * 2 + t.2.2 % 2

/-- The user's `fixed_pred` (`/repo/feax/solvers/cmg.py:99-100`): indices of the node, dimensions of the level. -/
abbrev FixedPred := ℕ × ℕ × ℕ → ℕ × ℕ × ℕ → Bool

/-- `free_node` (`/repo/feax/solvers/cmg.py:171`). -/
def freeNode (pred : FixedPred) (g : Grid) (n : ℕ) : Bool := !pred (nodeTriple g n) (g.nx, g.ny, g.nz)

/-! ## Transfers -/

/-- `ix, wx` (`/repo/feax/solvers/cmg.py:192-194`): the two coarse indices of an axis with their weights. -/
noncomputable def axisParents (i : ℕ) : List (ℕ × ℝ) :=
  [(i / 2, if i % 2 = 0 then 1 else 1 / 2), (i / 2 + 1, if i % 2 = 0 then 0 else 1 / 2)]

/-- One column of `P_idx, P_w` for one fine node (`/repo/feax/solvers/cmg.py:201-207`). -/
noncomputable def transferEntry (coarse : Level) (c : ℕ × ℕ × ℕ) (w : ℝ) : ℕ × ℝ :=
  let ncoarse := coarse.nodes.length
  let valid : Prop := 0 < w ∧ c.1 ≤ coarse.g.nx ∧ c.2.1 ≤ coarse.g.ny ∧ c.2.2 ≤ coarse.g.nz
  let gid := c.1 * ((coarse.g.ny + 1) * (coarse.g.nz + 1)) + c.2.1 * (coarse.g.nz + 1) + c.2.2
  let pos := min (searchsorted coarse.nodes gid) (ncoarse - 1)
  open Classical in if valid ∧ coarse.nodes.getD pos 0 = gid then (pos, w) else (ncoarse, 0)

/-- The row of `P_idx, P_w` of a fine node (`/repo/feax/solvers/cmg.py:187-209`). -/
noncomputable def transferRow (fine coarse : Level) (n : ℕ) : List (ℕ × ℝ) :=
  let t := nodeTriple fine.g n
  (axisParents t.1).flatMap fun x => (axisParents t.2.1).flatMap fun y => (axisParents t.2.2).map fun z =>
    transferEntry coarse (x.1, y.1, z.1) (x.2 * y.2 * z.2)

/-! ## The device arrays of a level -/

/-- A DOF array (`/repo/feax/solvers/cmg.py:10-11`). -/
abbrev Vec := ℕ → Fin 3 → ℝ

/-- The arrays of a level in the solver (`/repo/feax/solvers/cmg.py:358-373`, `465`): per cell the positions of the
corners (`edof // 3`) and the modulus, free flags, colours, transfer to the next level, number of nodes. -/
structure SLevel where
  els : List ((Fin 8 → ℕ) × ℝ)
  free : ℕ → Bool
  color : ℕ → ℕ
  P : ℕ → List (ℕ × ℝ)
  nn : ℕ

/-- The arrays without padding (`/repo/feax/solvers/cmg.py:163-173`, `209`, `433`): `coarse` is the next level, if any. -/
noncomputable def toSLevel (pred : FixedPred) (lev : Level) (coarse : Option Level) (E : List ℝ) : SLevel where
  els := List.zipWith (fun ids e => (fun a : Fin 8 => ids.getD a 0, e)) lev.ncid E
  free := fun n => decide (n < lev.nodes.length) && freeNode pred lev.g (lev.nodes.getD n 0)
  color := fun n => if n < lev.nodes.length then colorOf lev.g (lev.nodes.getD n 0) else 0
  P := fun n =>
    match coarse with
    | none => []
    | some c => if n < lev.nodes.length then transferRow lev c (lev.nodes.getD n 0) else List.replicate 8 (0, 0)
  nn := lev.nodes.length

/-- Padding to the bucket (`/repo/feax/solvers/cmg.py:361-373`, `434`): cells of zero modulus on node zero, fixed nodes of colour
zero without transfer. -/
def SLevel.pad (l : SLevel) (bucket : ℕ) : SLevel :=
  { l with els := l.els ++ List.replicate (cap l.els.length bucket - l.els.length) (fun _ => 0, 0)
           nn := cap l.nn bucket }

/-- `_mv_j` (`/repo/feax/solvers/cmg.py:212-215`). -/
noncomputable def mv (KE : Matrix (Fin 8 × Fin 3) (Fin 8 × Fin 3) ℝ) (l : SLevel) (u : Vec) : Vec := fun n c =>
  if l.free n then
    (l.els.map fun el => ∑ a : Fin 8, if el.1 a = n then
      el.2 * ∑ j : Fin 8 × Fin 3, u (el.1 j.1) j.2 * KE j (a, c) else 0).sum
  else 0

/-- `blk` (`/repo/feax/solvers/cmg.py:217-222`) with `_node_diag_blocks_3d` (`:91-92`). -/
noncomputable def diagBlock (KE : Matrix (Fin 8 × Fin 3) (Fin 8 × Fin 3) ℝ) (l : SLevel) (n : ℕ) : Matrix (Fin 3) (Fin 3) ℝ :=
  (l.els.map fun el => ∑ a : Fin 8, if el.1 a = n then
    el.2 • (Matrix.of fun c c' => KE (a, c) (a, c')) else 0).sum

/-- `_dinv_j` (`/repo/feax/solvers/cmg.py:217-225`). -/
noncomputable def dinv (KE : Matrix (Fin 8 × Fin 3) (Fin 8 × Fin 3) ℝ) (l : SLevel) (n : ℕ) : Matrix (Fin 3) (Fin 3) ℝ :=
  (if l.free n then diagBlock KE l n else 1)⁻¹

/-- Multiplication by `free` (`/repo/feax/solvers/cmg.py:231`, `234`, `279`). -/
def mask (l : SLevel) (u : Vec) : Vec := fun n c => if l.free n then u n c else 0

/-- The residual `(b - A u) * free` (`/repo/feax/solvers/cmg.py:231`, `264`). -/
noncomputable def resid (KE : Matrix (Fin 8 × Fin 3) (Fin 8 × Fin 3) ℝ) (l : SLevel) (b u : Vec) : Vec :=
  mask l (b - mv KE l u)

/-- One colour of a sweep (`/repo/feax/solvers/cmg.py:231-234`). -/
noncomputable def smoothColor (KE : Matrix (Fin 8 × Fin 3) (Fin 8 × Fin 3) ℝ) (l : SLevel) (b : Vec) (c : ℕ) (u : Vec) : Vec :=
  let r := resid KE l b u
  mask l fun n i => u n i + (if l.color n = c then (dinv KE l n *ᵥ r n) i else 0)

/-- `_smooth_j` (`/repo/feax/solvers/cmg.py:227-235`). -/
noncomputable def smooth (KE : Matrix (Fin 8 × Fin 3) (Fin 8 × Fin 3) ℝ) (l : SLevel) (b : Vec) (sweeps : ℕ) (u : Vec) : Vec :=
  (fun u => (List.range 8).foldl (fun u c => smoothColor KE l b c u) u)^[sweeps] u

/-- Restriction (`/repo/feax/solvers/cmg.py:266-268`). -/
noncomputable def restrictTo (l lc : SLevel) (r : Vec) : Vec :=
  mask lc fun m c => ∑ n ∈ Finset.range l.nn, ((l.P n).map fun p => if p.1 = m then p.2 * r n c else 0).sum

/-- Prolongation (`/repo/feax/solvers/cmg.py:270-272`), masked. -/
noncomputable def prolongTo (l : SLevel) (e : Vec) : Vec :=
  mask l fun n c => ((l.P n).map fun p => p.2 * e p.1 c).sum

/-- `_vcycle_j` (`/repo/feax/solvers/cmg.py:255-273`); `coarse` is the solve of the last level. -/
noncomputable def vcycle (KE : Matrix (Fin 8 × Fin 3) (Fin 8 × Fin 3) ℝ) (pre post : ℕ) (coarse : SLevel → Vec → Vec) :
    List SLevel → Vec → Vec
  | [], _ => 0
  | [l], b => mask l (coarse l (mask l b))
  | l :: lc :: rest, b =>
    let u := smooth KE l b pre 0
    let r := resid KE l b u
    let ec := vcycle KE pre post coarse (lc :: rest) (restrictTo l lc r)
    smooth KE l b post (u + prolongTo l ec)

/-! ## Preconditioned conjugate gradients -/

/-- `jnp.max(jnp.abs(r))` (`/repo/feax/solvers/cmg.py:281`, `286`); the arrays are never empty. -/
noncomputable def maxAbs (nn : ℕ) (r : Vec) : ℝ :=
  ((List.range nn).flatMap fun n => (List.finRange 3).map fun c => |r n c|).foldr max 0

/-- `jnp.vdot` (`/repo/feax/solvers/cmg.py:282`, `290`). -/
noncomputable def dot (nn : ℕ) (x y : Vec) : ℝ := ∑ n ∈ Finset.range nn, ∑ c : Fin 3, x n c * y n c

/-- The state of the loop (`/repo/feax/solvers/cmg.py:284-296`). -/
structure PcgState where
  u : Vec
  r : Vec
  p : Vec
  rz : ℝ
  k : ℕ

/-- `body` (`/repo/feax/solvers/cmg.py:288-294`) for an operator `A` and a preconditioner `M`. -/
noncomputable def pcgBody (nn : ℕ) (A M : Vec → Vec) (s : PcgState) : PcgState :=
  let Ap := A s.p
  let alpha := s.rz / (dot nn s.p Ap + 1 / 10 ^ 30)
  let r := s.r - alpha • Ap
  let z := M r
  let rz' := dot nn r z
  ⟨s.u + alpha • s.p, r, z + (rz' / (s.rz + 1 / 10 ^ 30)) • s.p, rz', s.k + 1⟩

/-- The loop (`/repo/feax/solvers/cmg.py:284-296`), `fuel` passes left of `cg_maxit`. -/
noncomputable def pcgLoop (nn : ℕ) (A M : Vec → Vec) (tol : ℝ) : ℕ → PcgState → PcgState
  | 0, s => s
  | fuel + 1, s => open Classical in if tol < maxAbs nn s.r then pcgLoop nn A M tol fuel (pcgBody nn A M s) else s

/-- Parameters of the instance (`/repo/feax/solvers/cmg.py:118-129`). -/
structure CmgParams where
  KE : Matrix (Fin 8 × Fin 3) (Fin 8 × Fin 3) ℝ
  pre : ℕ := 2
  post : ℕ := 2
  tol : ℝ := 1 / 10 ^ 8
  maxit : ℕ := 200

/-- `_solve_j` (`/repo/feax/solvers/cmg.py:275-297`): the loop's last state. -/
noncomputable def solveJ (q : CmgParams) (coarse : SLevel → Vec → Vec) (l : SLevel) (rest : List SLevel) (b u0 : Vec) : PcgState :=
  let b := mask l b
  let u := mask l u0
  let A := mv q.KE l
  let M := vcycle q.KE q.pre q.post coarse (l :: rest)
  let r := b - A u
  let tol := q.tol * (maxAbs l.nn r + 1 / 10 ^ 30)
  let z := M r
  pcgLoop l.nn A M tol q.maxit ⟨u, r, z, dot l.nn r z, 0⟩

/-! ## Design, loads, sensitivities -/

/-- SIMP interpolation (`/repo/feax/solvers/cmg.py:317`, `420`, `433`). -/
noncomputable def youngs (Emin E0 p rho : ℝ) : ℝ := Emin + rho ^ p * (E0 - Emin)

/-- Averaging to the next level (`/repo/feax/solvers/cmg.py:376-387`, `428-430`): `pos` of each fine cell among the coarse
cells, sum over count. -/
noncomputable def coarsenRho (fine coarse : Level) (rho : List ℝ) : List ℝ :=
  let pos := fine.cells.map fun e => searchsorted coarse.cells (parentCell fine.g e)
  let s := segmentSum rho pos coarse.cells.length
  let cnt := segmentSum (pos.map fun _ => (1 : ℝ)) pos coarse.cells.length
  List.zipWith (fun a c => a * (1 / max c 1)) s cnt

/-- The designs of all levels (`rhos` of `es_from_rho`, `/repo/feax/solvers/cmg.py:426-430`). -/
noncomputable def rhosFrom : List Level → List ℝ → List (List ℝ)
  | [], _ => []
  | [_], rho => [rho]
  | f :: c :: rest, rho => rho :: rhosFrom (c :: rest) (coarsenRho f c rho)

/-- The solver arrays of all levels (`/repo/feax/solvers/cmg.py:359-387`, `431-436`, `465`), padded. -/
noncomputable def solverLevels (pred : FixedPred) (Emin E0 p : ℝ) (bucket : ℕ) : List Level → List (List ℝ) → List SLevel
  | [], _ => []
  | [l], rhos => [(toSLevel pred l none ((rhos.headD []).map (youngs Emin E0 p))).pad bucket]
  | l :: c :: rest, rhos =>
    (toSLevel pred l (some c) ((rhos.headD []).map (youngs Emin E0 p))).pad bucket ::
      solverLevels pred Emin E0 p bucket (c :: rest) rhos.tail

/-- `compact_nodes` (`/repo/feax/solvers/cmg.py:300-302`). -/
def compactNodes (lev : Level) (ids : List ℕ) : List ℕ := ids.map (searchsorted lev.nodes)

/-- `load_vector` (`/repo/feax/solvers/cmg.py:304-310`), component `0`, `1` or `2`; an index beyond the array raises. -/
noncomputable def loadVector (lev : Level) (ids : List ℕ) (comp : Fin 3) (value : ℝ) : Except PyErr Vec :=
  let cn := compactNodes lev ids
  if cn.all fun n => decide (n < lev.nodes.length) then .ok fun n c => if n ∈ cn ∧ c = comp then value else 0
  else .error .indexError

/-- `ce`, one cell (`/repo/feax/solvers/cmg.py:318-319`), for two arrays. -/
noncomputable def cellForm (KE : Matrix (Fin 8 × Fin 3) (Fin 8 × Fin 3) ℝ) (ids : Fin 8 → ℕ) (u v : Vec) : ℝ :=
  ∑ i : Fin 8 × Fin 3, ∑ j : Fin 8 × Fin 3, u (ids i.1) i.2 * KE i j * v (ids j.1) j.2

/-- `compliance_and_dc` (`/repo/feax/solvers/cmg.py:312-322`). -/
noncomputable def complianceAndDc (KE : Matrix (Fin 8 × Fin 3) (Fin 8 × Fin 3) ℝ) (Emin E0 p : ℝ) (ncid : List (List ℕ))
    (rho : List ℝ) (u : Vec) : ℝ × List ℝ :=
  let ce := ncid.map fun ids => cellForm KE (fun a => ids.getD a 0) u u
  ((List.zipWith (fun r c => youngs Emin E0 p r * c) rho ce).sum,
   List.zipWith (fun r c => -p * r ^ (p - 1) * (E0 - Emin) * c) rho ce)

/-- `solve_bwd` after the adjoint solve (`/repo/feax/solvers/cmg.py:477-483`): the pullback of `mv0` in the design, with
the sign. -/
noncomputable def designCotangent (KE : Matrix (Fin 8 × Fin 3) (Fin 8 × Fin 3) ℝ) (Emin E0 p : ℝ) (l : SLevel)
    (rho : List ℝ) (u lam : Vec) : List ℝ :=
  List.zipWith (fun r (el : (Fin 8 → ℕ) × ℝ) =>
    -(p * r ^ (p - 1) * (E0 - Emin) * ∑ i : Fin 8 × Fin 3, (if l.free (el.1 i.1) then lam (el.1 i.1) i.2 else 0) *
      ∑ j : Fin 8 × Fin 3, u (el.1 j.1) j.2 * KE j i)) rho l.els

/-- `raw_solve` (`/repo/feax/solvers/cmg.py:462-467`): start at zero; only the displacement of the last state is kept. Compiled
and eager runs (`:451-460`) compute the same function. -/
noncomputable def rawSolve (q : CmgParams) (pred : FixedPred) (Emin E0 p : ℝ) (bucket : ℕ) (coarse : SLevel → Vec → Vec)
    (levels : List Level) (rho : List ℝ) (rhs : Vec) : Vec :=
  match solverLevels pred Emin E0 p bucket levels (rhosFrom levels rho) with
  | [] => 0
  | l :: rest => (solveJ q coarse l rest rhs 0).u

/-! ## The coarsest matrix -/

/-- The kept element entries `(ri, rj, value)` (`/repo/feax/solvers/cmg.py:390-397`, `440`), DOFs numbered `3 n + c`. -/
noncomputable def coarseEntries (KE : Matrix (Fin 8 × Fin 3) (Fin 8 × Fin 3) ℝ) (l : SLevel) : List (ℕ × ℕ × ℝ) :=
  l.els.flatMap fun el => (List.finRange 8).flatMap fun a => (List.finRange 3).flatMap fun (c : Fin 3) =>
    (List.finRange 8).flatMap fun b => (List.finRange 3).flatMap fun (c' : Fin 3) =>
      if l.free (el.1 a) && l.free (el.1 b) then
        [(3 * el.1 a + c.val, 3 * el.1 b + c'.val, el.2 * KE (a, c) (b, c'))] else []

/-- `fixed` (`/repo/feax/solvers/cmg.py:398`). -/
def fixedDofs (l : SLevel) : List ℕ := (List.range (3 * l.nn)).filter fun d => !l.free (d / 3)

/-- `csr_keys` (`/repo/feax/solvers/cmg.py:399-406`): the distinct keys `row * ndc + col` in order. -/
noncomputable def coarseKeys (KE : Matrix (Fin 8 × Fin 3) (Fin 8 × Fin 3) ℝ) (l : SLevel) : List ℕ :=
  let ndc := 3 * l.nn
  unique ((coarseEntries KE l).map (fun e => e.1 * ndc + e.2.1) ++ (fixedDofs l).map fun d => d * ndc + d)

/-- `data` (`/repo/feax/solvers/cmg.py:407-408`, `438-441`): element entries and ones added at the slots of their keys. -/
noncomputable def coarseData (KE : Matrix (Fin 8 × Fin 3) (Fin 8 × Fin 3) ℝ) (l : SLevel) : List ℝ :=
  let ndc := 3 * l.nn
  let keys := coarseKeys KE l
  segmentSum ((coarseEntries KE l).map (fun e => e.2.2) ++ (fixedDofs l).map fun _ => 1)
    (((coarseEntries KE l).map fun e => searchsorted keys (e.1 * ndc + e.2.1)) ++
      (fixedDofs l).map fun d => searchsorted keys (d * ndc + d)) keys.length

/-- The matrix handed to the factorization (`/repo/feax/solvers/cmg.py:442`): stored slots, zero elsewhere. -/
noncomputable def coarseMatrix (KE : Matrix (Fin 8 × Fin 3) (Fin 8 × Fin 3) ℝ) (l : SLevel) (i j : ℕ) : ℝ :=
  let keys := coarseKeys KE l
  let k := i * (3 * l.nn) + j
  if k ∈ keys then (coarseData KE l).getD (searchsorted keys k) 0 else 0

/-- The operator of the Krylov solve of the last level (`/repo/feax/solvers/cmg.py:244`). -/
noncomputable def coarseOperator (KE : Matrix (Fin 8 × Fin 3) (Fin 8 × Fin 3) ℝ) (l : SLevel) (x : Vec) : Vec := fun n c =>
  mv KE l x n c + (if l.free n then 0 else x n c)

/-- The preconditioner of the Krylov solve of the last level (`/repo/feax/solvers/cmg.py:245`). -/
noncomputable def coarsePrecond (KE : Matrix (Fin 8 × Fin 3) (Fin 8 × Fin 3) ℝ) (l : SLevel) (r : Vec) : Vec := fun n c =>
  (dinv KE l n *ᵥ r n) c

/-- The `solver_options` of the solver as `_parse_coarse` sees them. -/
inductive CoarseOpts where
  | none
  | direct
  | krylov (solver : String) (tol : ℝ) (maxiter : ℕ)
  | other

/-- The configuration `_parse_coarse` returns. -/
inductive CoarseConfig where
  | cudss
  | krylov (name : String) (tol : ℝ) (maxit : ℕ)

/-- `_parse_coarse` (`/repo/feax/solvers/cmg.py:131-150`); `haveCudss` says whether spineax is installed. -/
noncomputable def parseCoarse (haveCudss : Bool) : CoarseOpts → Except PyErr CoarseConfig
  | .none | .direct => if haveCudss then .ok .cudss else .error .importError
  | .krylov s tol m => .ok (.krylov (if s ≠ "auto" then s else "cg") tol m)
  | .other => .error .valueError

/-- The three Krylov methods of JAX, given operator, preconditioner, right-hand side, tolerance and iteration limit. -/
structure KrylovLib where
  bicgstab : (Vec → Vec) → (Vec → Vec) → Vec → ℝ → ℕ → Vec
  gmres : (Vec → Vec) → (Vec → Vec) → Vec → ℝ → ℕ → Vec
  cg : (Vec → Vec) → (Vec → Vec) → Vec → ℝ → ℕ → Vec

/-- `_coarse_solve_cg` (`/repo/feax/solvers/cmg.py:237-253`). -/
noncomputable def coarseSolveCg (lib : KrylovLib) (KE : Matrix (Fin 8 × Fin 3) (Fin 8 × Fin 3) ℝ) (name : String) (tol : ℝ) (maxit : ℕ)
    (l : SLevel) (b : Vec) : Vec :=
  mask l ((if name = "bicgstab" then lib.bicgstab else if name = "gmres" then lib.gmres else lib.cg)
    (coarseOperator KE l) (coarsePrecond KE l) (mask l b) tol maxit)

end Verif.Model.Cmg
