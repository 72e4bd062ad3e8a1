import Verif.Model.Vars
import Mathlib.Algebra.Order.Ring.Rat
import Mathlib.Data.List.GetD
import Mathlib.Algebra.Field.Rat

/-!
# Volume variables: C56
-/

namespace Verif.Props
open Verif.Model

section
variable {K : Type} [Field K]

/-! ## Specification -/

/-- The documented layouts of a volume variable (`TracedParams`): on the nodes of variable `i`, scalar or with several
components, per cell, per quadrature point. -/
inductive VarLayout
  | node (i : ℕ)
  | nodeVector (i k : ℕ)
  | cell
  | quad
  deriving DecidableEq

/-- The array has the documented shape. -/
def HasLayout (p : VarProblem K) : VarLayout → NdArr K → Prop
  | .node i, .vec xs => i < p.fes.length ∧ xs.length = (p.fe i).totalNodes
  | .nodeVector i k, .mat rows => i < p.fes.length ∧ rows.length = (p.fe i).totalNodes ∧ ∀ r ∈ rows, r.length = k
  | .cell, .vec xs => xs.length = p.numCells
  | .quad, .mat rows => rows.length = p.numCells ∧ ∀ r ∈ rows, r.length = p.numQuads
  | _, _ => False

/-- Component `k` of a nodal array at node `n`. -/
def nodalEntry (v : NdArr K) (n k : ℕ) : K :=
  match v with
  | .sc x => x
  | .vec xs => xs.getD n 0
  | .mat rows => (rows.getD n []).getD k 0

/-- The interpolant `∑ₐ Nₐ(q) f(node a of cell c)` on variable `i`. -/
def interpolant (p : VarProblem K) (i : ℕ) (f : ℕ → K) (c q : ℕ) : K :=
  ((List.range (p.fe i).nodesPerElem).map fun a =>
    (((p.fe i).shapeVals.getD q []).getD a 0) * f (((p.fe i).cells.getD c []).getD a 0)).sum

/-- The value the user means at quadrature point `q` of cell `c`. -/
def intended (p : VarProblem K) (l : VarLayout) (v : NdArr K) (c q : ℕ) : NdArr K :=
  match l with
  | .node i => .sc (interpolant p i (fun n => nodalEntry v n 0) c q)
  | .nodeVector i k => .vec ((List.range k).map fun j => interpolant p i (fun n => nodalEntry v n j) c q)
  | .cell => .sc (nodalEntry v c 0)
  | .quad => .sc (nodalEntry v c q)

/-- A consistent problem: every variable has the same cells and quadrature points, and its connectivity is in range. -/
structure VarProblemOk (p : VarProblem K) : Prop where
  quads : ∀ fe ∈ p.fes, fe.shapeVals.length = p.numQuads ∧ ∀ r ∈ fe.shapeVals, r.length = fe.nodesPerElem
  nodes : ∀ fe ∈ p.fes, 0 < fe.nodesPerElem
  cells : ∀ fe ∈ p.fes, fe.cells.length = p.numCells ∧
    ∀ c ∈ fe.cells, c.length = fe.nodesPerElem ∧ ∀ n ∈ c, n < fe.totalNodes

/-- No mesh of the problem has as many nodes as cells, and no earlier variable has as many nodes as variable `i`. -/
def Unambiguous (p : VarProblem K) (l : VarLayout) : Prop :=
  (∀ fe ∈ p.fes, fe.totalNodes ≠ p.numCells) ∧
    match l with
    | .node i => ∀ j < i, (p.fe j).totalNodes ≠ (p.fe i).totalNodes
    | .nodeVector i _ => ∀ j < i, (p.fe j).totalNodes ≠ (p.fe i).totalNodes
    | _ => True

/-! ## Proofs -/

theorem fe_mem {p : VarProblem K} {i : ℕ} (hi : i < p.fes.length) : p.fe i ∈ p.fes := by
  unfold VarProblem.fe
  rw [List.getD_eq_getElem _ _ hi]
  exact List.getElem_mem hi

theorem feWithNodes_eq {p : VarProblem K} {i : ℕ} (hi : i < p.fes.length)
    (hfirst : ∀ j < i, (p.fe j).totalNodes ≠ (p.fe i).totalNodes) : feWithNodes p (p.fe i).totalNodes = some i := by
  unfold feWithNodes
  rw [List.findIdx?_eq_some_iff_getElem]
  refine ⟨hi, ?_, ?_⟩
  · unfold VarProblem.fe
    rw [List.getD_eq_getElem _ _ hi]
    simp
  · intro j hj
    have := hfirst j hj
    unfold VarProblem.fe at this ⊢
    rw [List.getD_eq_getElem _ _ hi, List.getD_eq_getElem _ _ (by omega)] at this
    rw [List.getD_eq_getElem _ _ hi]
    simpa using this

theorem feWithNodes_none {p : VarProblem K} (h : ∀ fe ∈ p.fes, fe.totalNodes ≠ p.numCells) : feWithNodes p p.numCells = none := by
  unfold feWithNodes
  rw [List.findIdx?_eq_none_iff]
  intro fe hfe
  simpa using h fe hfe

theorem clampGet_eq {A : Type} (d : A) (xs : List A) (i : ℕ) (h : i < xs.length) : clampGet d xs i = xs.getD i d := by
  unfold clampGet
  rw [Nat.min_eq_left (by omega)]

theorem rowDot_eq (r xs : List K) (n : ℕ) (hr : r.length = n) (hx : xs.length = n) :
    rowDot r xs = ((List.range n).map fun a => r.getD a 0 * xs.getD a 0).sum := by
  unfold rowDot
  congr 1
  apply List.ext_getElem
  · simp [hr, hx]
  · intro a h1 h2
    simp only [List.length_map, List.length_range] at h2
    have h3 : a < r.length := by omega
    have h4 : a < xs.length := by omega
    simp [h3, h4]

/-- The nodal values of one cell, gathered and multiplied with a row of shape function values. -/
theorem gathered_dot {p : VarProblem K} (hp : VarProblemOk p) {i : ℕ} (hi : i < p.fes.length) {A : Type} (d : A) (xs : List A)
    (hx : xs.length = (p.fe i).totalNodes) (f : A → K) (c q : ℕ) (hc : c < p.numCells) (hq : q < p.numQuads) :
    rowDot ((p.fe i).shapeVals.getD q []) ((((p.fe i).cells.getD c []).map (clampGet d xs)).map f)
      = interpolant p i (fun n => f (xs.getD n d)) c q := by
  obtain ⟨hql, hqr⟩ := hp.quads _ (fe_mem hi)
  obtain ⟨hcl, hcr⟩ := hp.cells _ (fe_mem hi)
  have hcm : (p.fe i).cells.getD c [] ∈ (p.fe i).cells := by
    rw [List.getD_eq_getElem _ _ (by omega)]; exact List.getElem_mem _
  have hqm : (p.fe i).shapeVals.getD q [] ∈ (p.fe i).shapeVals := by
    rw [List.getD_eq_getElem _ _ (by omega)]; exact List.getElem_mem _
  obtain ⟨h1, h2⟩ := hcr _ hcm
  rw [rowDot_eq _ _ (p.fe i).nodesPerElem (hqr _ hqm) (by simpa using h1)]
  unfold interpolant
  congr 1
  apply List.map_congr_left
  intro a ha
  simp only [List.mem_range] at ha
  congr 1
  generalize (p.fe i).cells.getD c [] = cell at h1 h2
  have hac : a < cell.length := by omega
  rw [List.getD_eq_getElem _ _ (by simpa using hac), List.getElem_map, List.getElem_map, List.getD_eq_getElem cell _ hac,
    clampGet_eq _ _ _ (by rw [hx]; exact h2 _ (List.getElem_mem _))]

/-- **C56, assembly, the part that holds.** Whenever no mesh has as many nodes as cells, every documented layout gives the
constitutive function of every operator the intended value at every quadrature point. Missing: meshes with equally many
nodes and cells, see `C56_ambiguous_assembly`. -/
theorem C56_assembly_partial (p : VarProblem K) (hp : VarProblemOk p) (own : ℕ) (l : VarLayout) (v : NdArr K)
    (hv : HasLayout p l v) (hu : Unambiguous p l) (c q : ℕ) (hc : c < p.numCells) (hq : q < p.numQuads) :
    assemblyValue p own v c q = .ok (intended p l v c q) := by
  obtain ⟨hne, hfirst⟩ := hu
  match l, v with
  | .node i, .vec xs =>
    obtain ⟨hi, hx⟩ := hv
    have hw := feWithNodes_eq hi hfirst
    have hxc : xs.length ≠ p.numCells := by rw [hx]; exact hne _ (fe_mem hi)
    obtain ⟨hql, hqr⟩ := hp.quads _ (fe_mem hi)
    obtain ⟨hcl, hcr⟩ := hp.cells _ (fe_mem hi)
    have hcm : (p.fe i).cells.getD c [] ∈ (p.fe i).cells := by
      rw [List.getD_eq_getElem _ _ (by omega)]; exact List.getElem_mem _
    have hg := gathered_dot hp hi 0 xs hx id c q hc hq
    simp only [List.map_id, id] at hg
    have hlen := (hcr _ hcm).1
    simp only [assemblyValue, classifyVar, hx, hw, gatherCell]
    rw [if_neg (by rw [← hx]; exact hxc)]
    simp only [bind, Except.bind, Option.getD_some, interpolateVar, npDot, List.length_map]
    rw [if_pos hlen]
    simp only [sliceQuad, List.length_map]
    rw [if_pos hql]
    simp only [intended, nodalEntry, ← hg]
    rw [List.getD_eq_getElem _ _ (by simpa [hql] using hq), List.getElem_map, List.getD_eq_getElem (p.fe i).shapeVals [] (by omega)]
  | .nodeVector i k, .mat rows =>
    obtain ⟨hi, hx, hk⟩ := hv
    have hw := feWithNodes_eq hi hfirst
    have hxc : rows.length ≠ p.numCells := by rw [hx]; exact hne _ (fe_mem hi)
    obtain ⟨hql, hqr⟩ := hp.quads _ (fe_mem hi)
    obtain ⟨hcl, hcr⟩ := hp.cells _ (fe_mem hi)
    have hnp := hp.nodes _ (fe_mem hi)
    have hcm : (p.fe i).cells.getD c [] ∈ (p.fe i).cells := by
      rw [List.getD_eq_getElem _ _ (by omega)]; exact List.getElem_mem _
    have hg := fun j => gathered_dot hp hi [] rows hx (fun r => r.getD j 0) c q hc hq
    obtain ⟨hlen, hin⟩ := hcr _ hcm
    have hrow : ((((p.fe i).cells.getD c []).map (clampGet [] rows)).getD 0 []).length = k := by
      generalize (p.fe i).cells.getD c [] = cell at hlen hin
      have h0 : 0 < cell.length := by omega
      rw [List.getD_eq_getElem _ _ (by simpa using h0), List.getElem_map,
        clampGet_eq _ _ _ (by rw [hx]; exact hin _ (List.getElem_mem _)),
        List.getD_eq_getElem _ _ (by rw [hx]; exact hin _ (List.getElem_mem _))]
      exact hk _ (List.getElem_mem _)
    simp only [assemblyValue, classifyVar, hx, hw, gatherCell]
    rw [if_neg (by rw [← hx]; exact hxc)]
    simp only [bind, Except.bind, Option.getD_some, interpolateVar, npDot, List.length_map]
    rw [if_pos hlen]
    simp only [sliceQuad, List.length_map]
    rw [if_pos hql]
    simp only [intended, nodalEntry, ← hg, hrow]
    rw [List.getD_eq_getElem _ _ (by simpa [hql] using hq), List.getElem_map, List.getD_eq_getElem (p.fe i).shapeVals [] (by omega)]
  | .cell, .vec xs =>
    have hx : xs.length = p.numCells := hv
    simp only [assemblyValue, classifyVar, hx, feWithNodes_none hne, gatherCell, if_true, bind, Except.bind, interpolateVar,
      sliceQuad, List.length_replicate, intended, nodalEntry]
    simp [hq]
  | .quad, .mat rows =>
    obtain ⟨hx, hr⟩ := hv
    have h0 : (rows.getD 0 []).length = p.numQuads := by
      rw [List.getD_eq_getElem _ _ (by omega)]; exact hr _ (List.getElem_mem _)
    have hcq : (rows.getD c []).length = p.numQuads := by
      rw [List.getD_eq_getElem _ _ (by omega)]; exact hr _ (List.getElem_mem _)
    simp only [assemblyValue, classifyVar, hx, feWithNodes_none hne, gatherCell, if_true, bind, Except.bind, h0, interpolateVar,
      sliceQuad, hcq, intended, nodalEntry]

/-- **C56, energy and average stress, the part that holds.** The other two routes compute the same values for scalar
variables on the nodes of variable 0, per cell and per quadrature point. -/
theorem C56_energy_partial (p : VarProblem K) (hp : VarProblemOk p) (l : VarLayout) (hl : l = .node 0 ∨ l = .cell ∨ l = .quad)
    (v : NdArr K) (hv : HasLayout p l v) (hne : (p.fe 0).totalNodes ≠ p.numCells) (c q : ℕ) (hc : c < p.numCells)
    (hq : q < p.numQuads) : energyValue p v c q = .ok (intended p l v c q) := by
  rcases hl with rfl | rfl | rfl
  · match v with
    | .vec xs =>
      obtain ⟨hi, hx⟩ := hv
      obtain ⟨hql, -⟩ := hp.quads _ (fe_mem hi)
      have hg := gathered_dot hp hi 0 xs hx id c q hc hq
      simp only [List.map_id, id] at hg
      simp only [energyValue]
      rw [if_neg (by rw [hx]; exact hne)]
      simp only [sliceQuad, List.length_map]
      rw [if_pos hql]
      simp only [intended, nodalEntry, ← hg]
      rw [List.getD_eq_getElem _ _ (by simpa [hql] using hq), List.getElem_map, List.getD_eq_getElem (p.fe 0).shapeVals [] (by omega)]
  · match v with
    | .vec xs =>
      have hx : xs.length = p.numCells := hv
      simp only [energyValue, hx, if_true, sliceQuad, List.length_replicate, intended, nodalEntry]
      simp [hq]
  · match v with
    | .mat rows =>
      obtain ⟨hx, hr⟩ := hv
      have hcq : (rows.getD c []).length = p.numQuads := by
        rw [List.getD_eq_getElem _ _ (by omega)]; exact hr _ (List.getElem_mem _)
      simp only [energyValue, hx, if_true, sliceQuad, hcq, intended, nodalEntry]

/-- All routes agree there. -/
theorem C56_routes_agree_partial (p : VarProblem K) (hp : VarProblemOk p) (own : ℕ) (l : VarLayout)
    (hl : l = .node 0 ∨ l = .cell ∨ l = .quad) (h0 : 0 < p.fes.length) (v : NdArr K) (hv : HasLayout p l v)
    (hne : ∀ fe ∈ p.fes, fe.totalNodes ≠ p.numCells) (c q : ℕ) (hc : c < p.numCells) (hq : q < p.numQuads) :
    assemblyValue p own v c q = energyValue p v c q := by
  have hu : Unambiguous p l := by
    refine ⟨hne, ?_⟩
    rcases hl with rfl | rfl | rfl
    · intro j hj; omega
    · trivial
    · trivial
  rw [C56_assembly_partial p hp own l v hv hu c q hc hq, C56_energy_partial p hp l hl v hv (hne _ (fe_mem h0)) c q hc hq]

/-- **C56 fails when there are as many nodes as cells**: whatever the user means, the array is tagged as nodal but not
gathered, and each quadrature point receives the row of shape function values times the entry of the cell - an array where
a number is expected. -/
theorem C56_ambiguous_assembly (p : VarProblem K) (hp : VarProblemOk p) (h0 : 0 < p.fes.length) (own : ℕ)
    (heq : (p.fe 0).totalNodes = p.numCells) (xs : List K) (hx : xs.length = p.numCells) (c q : ℕ)
    (hq : q < p.numQuads) :
    assemblyValue p own (.vec xs) c q = .ok (.vec (((p.fe 0).shapeVals.getD q []).map (· * xs.getD c 0))) := by
  have hw : feWithNodes p p.numCells = some 0 := by
    rw [← heq]; exact feWithNodes_eq h0 (by intro j hj; omega)
  obtain ⟨hql, -⟩ := hp.quads _ (fe_mem h0)
  simp only [assemblyValue, classifyVar, hx, hw, gatherCell, if_true, bind, Except.bind, interpolateVar, npDot, sliceQuad,
    List.length_map]
  rw [if_pos hql, List.getD_eq_getElem _ _ (by simpa [hql] using hq), List.getElem_map, List.getD_eq_getElem (p.fe 0).shapeVals [] (by omega)]

end

/-- Three triangles-like cells on three nodes, two quadrature points. -/
def exSquare : VarProblem ℚ :=
  ⟨[⟨3, [[1 / 2, 1 / 4, 1 / 4], [1 / 4, 1 / 2, 1 / 4]], [[0, 1, 2], [1, 2, 0], [2, 0, 1]], 3⟩], 3, 2⟩

/-- Two variables on different meshes with two cells. -/
def exTwoFields : VarProblem ℚ :=
  ⟨[⟨4, [[1 / 2, 1 / 2], [1 / 4, 3 / 4]], [[0, 1], [2, 3]], 2⟩, ⟨3, [[1 / 2, 1 / 2], [1 / 4, 3 / 4]], [[0, 1], [1, 2]], 2⟩], 2, 2⟩

theorem exTwoFields_ok : VarProblemOk exTwoFields := ⟨by decide +kernel, by decide, by decide⟩
theorem exSquare_ok : VarProblemOk exSquare := ⟨by decide +kernel, by decide, by decide⟩

/-- On `exSquare` the energy takes a nodal field for cell data: 10 instead of the interpolated 35/2; assembly hands over an
array. -/
theorem C56_ambiguous_energy :
    HasLayout exSquare (.node 0) (.vec [10, 20, 30]) ∧
      intended exSquare (.node 0) (.vec [10, 20, 30]) 0 0 = .sc (35 / 2) ∧
      energyValue exSquare (.vec [10, 20, 30]) 0 0 = .ok (.sc 10) ∧
      assemblyValue exSquare 0 (.vec [10, 20, 30]) 0 0 = .ok (.vec [5, 5 / 2, 5 / 2]) := by
  refine ⟨⟨by decide, by decide⟩, by decide +kernel, by decide +kernel, by decide +kernel⟩

/-- A nodal variable of the second field: assembly interpolates it on its own mesh, the energy on the mesh of the first
field. -/
theorem C56_second_field_energy :
    HasLayout exTwoFields (.node 1) (.vec [10, 20, 30]) ∧
      assemblyValue exTwoFields 0 (.vec [10, 20, 30]) 1 0 = .ok (.sc 25) ∧
      intended exTwoFields (.node 1) (.vec [10, 20, 30]) 1 0 = .sc 25 ∧
      energyValue exTwoFields (.vec [10, 20, 30]) 1 0 = .ok (.sc 30) := by
  refine ⟨⟨by decide, by decide⟩, by decide +kernel, by decide +kernel, by decide +kernel⟩

/-- A rank-0 array is classified as cell data "broadcast to all quadrature points", but the batched map refuses it. -/
theorem C56_scalar_refused {K : Type} [Field K] (p : VarProblem K) (own : ℕ) (x : K) (c q : ℕ) :
    classifyVar p (.sc x) = (some .cell, 0) ∧ assemblyValue p own (.sc x) c q = .error .valueError := ⟨rfl, rfl⟩

/-- A per-cell vector reaches the constitutive function as its first component only. -/
theorem C56_cell_vector_truncated :
    assemblyValue exTwoFields 0 (.mat [[1, 2, 3], [4, 5, 6]]) 1 0 = .ok (.sc 4) := by decide +kernel

/-- The hypotheses of `C56_assembly_partial` hold for a nodal vector of the second field. -/
example : assemblyValue exTwoFields 0 (.mat [[1, 2], [3, 4], [5, 6]]) 1 1 = .ok (intended exTwoFields (.nodeVector 1 2) (.mat [[1, 2], [3, 4], [5, 6]]) 1 1) :=
  C56_assembly_partial _ exTwoFields_ok 0 (.nodeVector 1 2) (.mat [[1, 2], [3, 4], [5, 6]]) ⟨by decide, by decide, by decide⟩
    ⟨by decide, by decide⟩ 1 1 (by decide) (by decide)

example : energyValue exTwoFields (.mat [[1, 2], [3, 4]]) 1 1 = .ok (.sc 4) :=
  C56_energy_partial _ exTwoFields_ok .quad (.inr (.inr rfl)) (.mat [[1, 2], [3, 4]]) ⟨by decide, by decide⟩ (by decide) 1 1 (by decide) (by decide)

end Verif.Props
