import Verif.Props.AffineRigid
import Verif.Props.ElasticEquilibrium
import Verif.Props.Grid

/-!
# Elasticity on the voxel meshes of `StructuredGrid` (C160)

The mesh `StructuredGrid.to_mesh` (`/repo/feax/spgrid.py:156-170`) makes of any set of cells connected through faces is braced as soon as
three of its nodes off a line are held, and its cells are rigid with two points per direction. The cells of a grid are turned against the
reference cell (`_HEX8_OFFSETS`, `/repo/feax/spgrid.py:23-25`), so they are parallelepipeds for this purpose.
-/

namespace Verif.Props

open Verif.Model Verif.Lemmas
open Spec.Amg (Skew)
open Spec.WellPosed

namespace Spec.WellPosed
variable {K : Type*} [Field K]

/-- The displacement variable of a problem on a hexahedral mesh: three components per point, eight nodes per cell. -/
def solidVar (m : Verif.Model.Grid.SubMesh (K × K × K)) : Var := ⟨3, m.points.length, 8, m.cells⟩

/-- The coordinates of the points of a solid mesh. -/
def solidX (m : Verif.Model.Grid.SubMesh (K × K × K)) (n k : ℕ) : K :=
  let p := m.points.getD n (0, 0, 0)
  if k = 0 then p.1 else if k = 1 then p.2.1 else p.2.2

/-- Two cells of a grid share a face: their index triples differ by one in one direction. -/
def FaceNeighbours (g : Grid) (e f : ℕ) : Prop :=
  ∃ i j k i' j' k', i < g.nx ∧ j < g.ny ∧ k < g.nz ∧ i' < g.nx ∧ j' < g.ny ∧ k' < g.nz ∧ g.cellId (i, j, k) = e ∧ g.cellId (i', j', k') = f ∧
    ((i' = i + 1 ∨ i = i' + 1) ∧ j = j' ∧ k = k' ∨ i = i' ∧ (j' = j + 1 ∨ j = j' + 1) ∧ k = k' ∨
      i = i' ∧ j = j' ∧ (k' = k + 1 ∨ k = k' + 1))

/-- Any two cells of the list are joined by a chain of cells of the list, each sharing a face with the next. -/
def FaceConnected (g : Grid) (ids : List ℕ) : Prop :=
  ∀ e ∈ ids, ∀ f ∈ ids, Relation.ReflTransGen (fun a b => b ∈ ids ∧ FaceNeighbours g a b) e f

end Spec.WellPosed

section field
variable {K : Type*} [Field K] (g : Grid) (spacing origin : K × K × K) (ids : List ℕ)

/-- The nodes used by the cells. -/
def usedNodes : List ℕ := unique (ids.map g.cellToNodes).flatten

theorem voxel_cell {c e : ℕ} (hc : ids[c]? = some e) :
    (solidVar (g.toMesh spacing origin (some ids))).cells.getD c [] = (g.cellToNodes e).map (searchsorted (usedNodes g ids)) := by
  simp [solidVar, Grid.toMesh, Grid.compactMesh, usedNodes, List.getD_eq_getElem?_getD, hc]

theorem voxel_point {e n : ℕ} (he : e ∈ ids) (hn : n ∈ g.cellToNodes e) :
    (g.toMesh spacing origin (some ids)).points.getD (searchsorted (usedNodes g ids) n) (0, 0, 0) = g.nodeCoords spacing origin n := by
  have hmem : n ∈ usedNodes g ids := by
    rw [usedNodes, mem_unique, List.mem_flatten]
    exact ⟨_, List.mem_map_of_mem he, hn⟩
  have : (usedNodes g ids)[searchsorted (usedNodes g ids) n]? = some n := searchsorted_sorted (unique_lt _) hmem
  simp only [Grid.toMesh, Grid.compactMesh, List.getD_eq_getElem?_getD, List.getElem?_map]
  change (Option.map _ (usedNodes g ids)[searchsorted (usedNodes g ids) n]?).getD _ = _
  rw [this]
  rfl

/-- The position of a corner of a cell. -/
theorem voxel_corner {e : ℕ} (he : e ∈ ids) {i j k : ℕ} (hn : g.nodeId (i, j, k) ∈ g.cellToNodes e)
    (hj : j ≤ g.ny) (hk : k ≤ g.nz) (l : ℕ) :
    solidX (g.toMesh spacing origin (some ids)) (searchsorted (usedNodes g ids) (g.nodeId (i, j, k))) l =
      if l = 0 then origin.1 + i * spacing.1 else if l = 1 then origin.2.1 + j * spacing.2.1 else origin.2.2 + k * spacing.2.2 := by
  unfold solidX
  simp only [voxel_point g spacing origin ids he hn, Grid.nodeCoords, nodeIjk_nodeId g (i, j, k) hj hk]

/-- The matrix of the cells. -/
def voxelB : Matrix (Fin 3) (Fin 3) K := !![0, 0, spacing.1; -spacing.2.1, 0, 0; 0, -spacing.2.2, 0]

theorem voxelB_apply (i j : Fin 3) : voxelB spacing i j = if i.val = 0 then (if j.val = 2 then spacing.1 else 0) else
    if i.val = 1 then (if j.val = 0 then -spacing.2.1 else 0) else if j.val = 1 then -spacing.2.2 else 0 := by
  fin_cases i <;> fin_cases j <;> simp [voxelB]

theorem voxelB_det : (voxelB spacing).det = spacing.1 * spacing.2.1 * spacing.2.2 := by
  rw [voxelB, Matrix.det_fin_three]
  simp

/-- A cell of the grid is an affine image of the reference cell. -/
theorem voxel_affine [CharZero K] {c e : ℕ} (hc : ids[c]? = some e) (hin : e < g.numCells) :
    ∃ o, AffineCell (refNodes K .HEX8) (coordsOf (solidX (g.toMesh spacing origin (some ids)))
      ((solidVar (g.toMesh spacing origin (some ids))).cells.getD c [])) (voxelB spacing) o := by
  have he : e ∈ ids := List.mem_of_getElem? hc
  obtain ⟨_, h1, h2, h3⟩ := cellId_cellIjk g e hin
  rcases hijk : g.cellIjk e with ⟨x, y, z⟩
  rw [hijk] at h1 h2 h3
  simp only at h1 h2 h3
  refine ⟨fun i => if i.val = 0 then origin.1 + x * spacing.1 else if i.val = 1 then origin.2.1 + (y + 1) * spacing.2.1 else
    origin.2.2 + (z + 1) * spacing.2.2, ?_⟩
  have hX : ∀ a b d, a ≤ 1 → b ≤ 1 → d ≤ 1 → ∀ l, solidX (g.toMesh spacing origin (some ids))
      (searchsorted (usedNodes g ids) (g.nodeId (x + a, y + b, z + d))) l = if l = 0 then origin.1 + (x + a : ℕ) * spacing.1 else
        if l = 1 then origin.2.1 + (y + b : ℕ) * spacing.2.1 else origin.2.2 + (z + d : ℕ) * spacing.2.2 := by
    intro a b d ha hb hd l
    refine voxel_corner g spacing origin ids he ?_ (by omega) (by omega) l
    rw [mem_cellToNodes g hin (by omega) (by omega), hijk]
    simp only
    omega
  intro a i
  rw [voxel_cell g spacing origin ids hc, cellToNodes_eq, hijk]
  refine Eq.trans ?_ (congrArg (· + _) (Fin.sum_univ_three _)).symm
  unfold coordsOf
  have key : ∀ (a : ℕ) (ha : a < 8), ((List.map (fun o : ℕ × ℕ × ℕ => g.nodeId (x + o.1, y + o.2.1, z + o.2.2)) hexOffsets).map
      (searchsorted (usedNodes g ids))).getD a 0 = searchsorted (usedNodes g ids) (g.nodeId (x + (hexOffsets.getD a (0, 0, 0)).1,
        y + (hexOffsets.getD a (0, 0, 0)).2.1, z + (hexOffsets.getD a (0, 0, 0)).2.2)) := by
    intro a ha
    interval_cases a <;> rfl
  have hle : ∀ a < 8, (hexOffsets.getD a (0, 0, 0)).1 ≤ 1 ∧ (hexOffsets.getD a (0, 0, 0)).2.1 ≤ 1 ∧ (hexOffsets.getD a (0, 0, 0)).2.2 ≤ 1 := by
    decide
  have ha8 : a.val < 8 := a.isLt
  obtain ⟨l1, l2, l3⟩ := hle a.val ha8
  rw [key a.val ha8, hX _ _ _ l1 l2 l3]
  have hi3 : i.val < 3 := i.isLt
  obtain ⟨a, ha⟩ := a
  obtain ⟨i, hi⟩ := i
  simp only at ha8 hi3 ⊢
  have hB := voxelB_apply spacing ⟨i, hi3⟩
  have e0 := hB 0
  have e1 := hB 1
  have e2 := hB 2
  refine Eq.trans ?_ (congrArg (· + _) (congrArg₂ (· + ·) (congrArg₂ (· + ·) (congrArg (· * _) e0.symm) (congrArg (· * _) e1.symm))
    (congrArg (· * _) e2.symm)))
  interval_cases a <;> interval_cases i <;>
    simp [hexOffsets, refNodes, nodeCoord, twiceNode, twiceNodes] <;> try ring

/-- C160: every cell of a voxel mesh is rigid. -/
theorem C160_voxel_cells [CharZero K] (hs : spacing.1 * spacing.2.1 * spacing.2.2 ≠ 0) (hin : ∀ e ∈ ids, e < g.numCells)
    (fs : List Verif.Spec.Field) {m : ℕ} (pts : Fin m → K × K × K) (w : Fin m → K) (iv : Fin m → List K) (p p' : K) (hp : p ≠ p')
    (hpts : ∀ x ∈ [p, p'], ∀ y ∈ [p, p'], ∀ z ∈ [p, p'], ∃ q, pts q = (x, y, z)) (c : ℕ) (hc : c < ids.length) :
    RigidCell fs 3 (solidX (g.toMesh spacing origin (some ids))) ((solidVar (g.toMesh spacing origin (some ids))).cells.getD c [])
      ((EleType.HEX8.refElem 3 pts w).cellPoints (coordsOf (solidX (g.toMesh spacing origin (some ids)))
        ((solidVar (g.toMesh spacing origin (some ids))).cells.getD c [])) iv) := by
  have hce : ids[c]? = some ids[c] := List.getElem?_eq_getElem hc
  obtain ⟨o, ho⟩ := voxel_affine g spacing origin ids hce (hin _ (List.getElem_mem hc))
  exact C160_parallelepiped fs _ _ (by rw [voxel_cell g spacing origin ids hce, List.length_map]; rfl) _ (by rwa [voxelB_det]) o ho pts w iv p p'
    hp hpts

/-- Three corners at a right angle common to two cells fix a body. -/
theorem voxel_fixes [CharZero K] (hs : spacing.1 ≠ 0 ∧ spacing.2.1 ≠ 0 ∧ spacing.2.2 ≠ 0) (hin : ∀ e ∈ ids, e < g.numCells) {e f : ℕ}
    (he : e ∈ ids) (hf : f ∈ ids) (h : e = f ∨ FaceNeighbours g e f) :
    Fixes 3 (solidX (g.toMesh spacing origin (some ids))) fun n _ =>
      n ∈ (g.cellToNodes e).map (searchsorted (usedNodes g ids)) ∧ n ∈ (g.cellToNodes f).map (searchsorted (usedNodes g ids)) := by
  have hie := hin e he
  have hif := hin f hf
  have main : ∀ i j k i' j' k' i'' j'' k'' : ℕ, j ≤ g.ny → k ≤ g.nz → j' ≤ g.ny → k' ≤ g.nz → j'' ≤ g.ny → k'' ≤ g.nz →
      (g.nodeId (i, j, k) ∈ g.cellToNodes e ∧ g.nodeId (i, j, k) ∈ g.cellToNodes f) →
      (g.nodeId (i', j', k') ∈ g.cellToNodes e ∧ g.nodeId (i', j', k') ∈ g.cellToNodes f) →
      (g.nodeId (i'', j'', k'') ∈ g.cellToNodes e ∧ g.nodeId (i'', j'', k'') ∈ g.cellToNodes f) →
      (i' = i ∧ j' = j + 1 ∧ k' = k ∧ i'' = i ∧ j'' = j ∧ k'' = k + 1 ∨ i' = i ∧ j' = j ∧ k' = k + 1 ∧ i'' = i + 1 ∧ j'' = j ∧ k'' = k ∨
        i' = i + 1 ∧ j' = j ∧ k' = k ∧ i'' = i ∧ j'' = j + 1 ∧ k'' = k) →
      Fixes 3 (solidX (g.toMesh spacing origin (some ids))) fun n _ =>
        n ∈ (g.cellToNodes e).map (searchsorted (usedNodes g ids)) ∧ n ∈ (g.cellToNodes f).map (searchsorted (usedNodes g ids)) := by
    intro i j k i' j' k' i'' j'' k'' b1 b2 b3 b4 b5 b6 m1 m2 m3 hcase
    refine C160_three_points _ two_ne_zero (searchsorted (usedNodes g ids) (g.nodeId (i, j, k)))
      (searchsorted (usedNodes g ids) (g.nodeId (i', j', k'))) (searchsorted (usedNodes g ids) (g.nodeId (i'', j'', k''))) ?_ _
      fun c _ => ⟨⟨List.mem_map_of_mem m1.1, List.mem_map_of_mem m1.2⟩, ⟨List.mem_map_of_mem m2.1, List.mem_map_of_mem m2.2⟩,
        ⟨List.mem_map_of_mem m3.1, List.mem_map_of_mem m3.2⟩⟩
    simp only [voxel_corner g spacing origin ids he m1.1 b1 b2, voxel_corner g spacing origin ids he m2.1 b3 b4,
      voxel_corner g spacing origin ids he m3.1 b5 b6, if_true, one_ne_zero, if_false, OfNat.ofNat_ne_zero, OfNat.ofNat_ne_one]
    obtain ⟨s1, s2, s3⟩ := hs
    rcases hcase with ⟨rfl, rfl, rfl, rfl, rfl, rfl⟩ | ⟨rfl, rfl, rfl, rfl, rfl, rfl⟩ | ⟨rfl, rfl, rfl, rfl, rfl, rfl⟩
    · refine .inl fun hcon => mul_ne_zero s2 s3 ?_
      push_cast at hcon
      linear_combination hcon
    · refine .inr (.inl fun hcon => mul_ne_zero s1 s3 ?_)
      push_cast at hcon
      linear_combination hcon
    · refine .inr (.inr fun hcon => mul_ne_zero s1 s2 ?_)
      push_cast at hcon
      linear_combination hcon
  rcases h with rfl | ⟨i, j, k, i', j', k', hi, hj, hk, hi', hj', hk', rfl, rfl, hadj⟩
  · obtain ⟨_, h1, h2, h3⟩ := cellId_cellIjk g e hie
    refine main (g.cellIjk e).1 (g.cellIjk e).2.1 (g.cellIjk e).2.2 (g.cellIjk e).1 ((g.cellIjk e).2.1 + 1) (g.cellIjk e).2.2
      (g.cellIjk e).1 (g.cellIjk e).2.1 ((g.cellIjk e).2.2 + 1) (by omega) (by omega) (by omega) (by omega) (by omega) (by omega) ?_ ?_ ?_ (by omega) <;>
    · rw [mem_cellToNodes g hie (by omega) (by omega)]
      omega
  · have e1 := cellIjk_cellId g (i, j, k) hj hk
    have e2 := cellIjk_cellId g (i', j', k') hj' hk'
    have hm : ∀ a b d, b ≤ g.ny → d ≤ g.nz → (((i ≤ a ∧ a ≤ i + 1) ∧ (j ≤ b ∧ b ≤ j + 1) ∧ (k ≤ d ∧ d ≤ k + 1)) ∧
        ((i' ≤ a ∧ a ≤ i' + 1) ∧ (j' ≤ b ∧ b ≤ j' + 1) ∧ (k' ≤ d ∧ d ≤ k' + 1))) →
        g.nodeId (a, b, d) ∈ g.cellToNodes (g.cellId (i, j, k)) ∧ g.nodeId (a, b, d) ∈ g.cellToNodes (g.cellId (i', j', k')) := by
      intro a b d hb hd h
      rw [mem_cellToNodes g hie hb hd, mem_cellToNodes g hif hb hd, e1, e2]
      exact h
    rcases hadj with ⟨_, rfl, rfl⟩ | ⟨rfl, _, rfl⟩ | ⟨rfl, rfl, _⟩
    · exact main (max i i') j k (max i i') (j + 1) k (max i i') j (k + 1) (by omega) (by omega) (by omega) (by omega) (by omega) (by omega)
        (hm _ _ _ (by omega) (by omega) (by omega)) (hm _ _ _ (by omega) (by omega) (by omega)) (hm _ _ _ (by omega) (by omega) (by omega)) (by omega)
    · exact main i (max j j') k i (max j j') (k + 1) (i + 1) (max j j') k (by omega) (by omega) (by omega) (by omega) (by omega) (by omega)
        (hm _ _ _ (by omega) (by omega) (by omega)) (hm _ _ _ (by omega) (by omega) (by omega)) (hm _ _ _ (by omega) (by omega) (by omega)) (by omega)
    · exact main i j (max k k') (i + 1) j (max k k') i (j + 1) (max k k') (by omega) (by omega) (by omega) (by omega) (by omega) (by omega)
        (hm _ _ _ (by omega) (by omega) (by omega)) (hm _ _ _ (by omega) (by omega) (by omega)) (hm _ _ _ (by omega) (by omega) (by omega)) (by omega)

/-- C160: the mesh of a set of grid cells connected through faces, with three held nodes off a line, is braced. -/
theorem C160_voxels_braced [CharZero K] (hs : spacing.1 ≠ 0 ∧ spacing.2.1 ≠ 0 ∧ spacing.2.2 ≠ 0) (hin : ∀ e ∈ ids, e < g.numCells)
    (hconn : FaceConnected g ids) (d : Discretization K (List (QPoint K)) (List (QPoint K))) (hd : d.p.WF)
    (hv : d.p.vars = [solidVar (g.toMesh spacing origin (some ids))]) (rows : List ℕ) (n₁ n₂ n₃ : ℕ)
    (hn : ∀ n ∈ [n₁, n₂, n₃], n < (g.toMesh spacing origin (some ids)).points.length ∧ ∀ c < 3, n * 3 + c ∈ rows)
    (hoff : let X := solidX (g.toMesh spacing origin (some ids))
      (X n₂ 1 - X n₁ 1) * (X n₃ 2 - X n₁ 2) ≠ (X n₂ 2 - X n₁ 2) * (X n₃ 1 - X n₁ 1) ∨
      (X n₂ 2 - X n₁ 2) * (X n₃ 0 - X n₁ 0) ≠ (X n₂ 0 - X n₁ 0) * (X n₃ 2 - X n₁ 2) ∨
      (X n₂ 0 - X n₁ 0) * (X n₃ 1 - X n₁ 1) ≠ (X n₂ 1 - X n₁ 1) * (X n₃ 0 - X n₁ 0)) :
    Braced d (solidVar (g.toMesh spacing origin (some ids))) 3 (solidX (g.toMesh spacing origin (some ids))) rows := by
  have hnum : d.p.numCells = ids.length := by
    have : (solidVar (g.toMesh spacing origin (some ids))).cells.length = ids.length := by
      simp [solidVar, Grid.toMesh, Grid.compactMesh]
    rw [← this]
    exact (hd.vars _ (by rw [hv]; exact List.mem_cons_self)).rows.symm
  have hcell : ∀ c e, ids[c]? = some e → Spec.WellPosed.cell d c = (g.cellToNodes e).map (searchsorted (usedNodes g ids)) := by
    intro c e hc
    rw [← voxel_cell g spacing origin ids hc]
    unfold Spec.WellPosed.cell cellNodes
    rw [hv]
    rfl
  refine ⟨?_, ?_, ?_⟩
  · intro n hnn
    have hlen : n < (usedNodes g ids).length := by
      simpa [solidVar, Grid.toMesh, Grid.compactMesh, usedNodes] using hnn
    have hmem : (usedNodes g ids)[n] ∈ usedNodes g ids := List.getElem_mem hlen
    have hss : (usedNodes g ids)[searchsorted (usedNodes g ids) (usedNodes g ids)[n]]? = some (usedNodes g ids)[n] :=
      searchsorted_sorted (unique_lt _) hmem
    have hmem' : (usedNodes g ids)[n] ∈ (ids.map g.cellToNodes).flatten := mem_unique.mp hmem
    rw [List.mem_flatten] at hmem'
    obtain ⟨cl, hcl, hncl⟩ := hmem'
    obtain ⟨e, he, rfl⟩ := List.mem_map.mp hcl
    obtain ⟨c, hc, rfl⟩ := List.mem_iff_getElem.mp he
    refine ⟨c, by rw [hnum]; exact hc, ?_⟩
    rw [hcell c _ (List.getElem?_eq_getElem hc)]
    refine List.mem_map.mpr ⟨_, hncl, ?_⟩
    have hnd : (usedNodes g ids).Nodup := (unique_lt _).imp fun h => h.ne
    obtain ⟨hlt, heq⟩ := List.getElem?_eq_some_iff.mp hss
    exact hnd.getElem_inj_iff.mp heq
  · have hstep : ∀ i j e f, ids[i]? = some e → ids[j]? = some f → (e = f ∨ FaceNeighbours g e f) → j < d.p.numCells ∧
        Fixes 3 (solidX (g.toMesh spacing origin (some ids))) fun n _ => n ∈ Spec.WellPosed.cell d i ∧ n ∈ Spec.WellPosed.cell d j := by
      intro i j e f hi hj h
      refine ⟨by rw [hnum]; exact (List.getElem?_eq_some_iff.mp hj).1, ?_⟩
      rw [hcell i e hi, hcell j f hj]
      exact voxel_fixes g spacing origin ids hs hin (List.mem_of_getElem? hi) (List.mem_of_getElem? hj) h
    intro i hi j hj
    rw [hnum] at hi hj
    have hchain := hconn _ (List.getElem_mem hi) _ (List.getElem_mem hj)
    have hii : ids[i]? = some ids[i] := List.getElem?_eq_getElem hi
    have hjj : ids[j]? = some ids[j] := List.getElem?_eq_getElem hj
    generalize ids[i] = e at hchain hii
    generalize ids[j] = f at hchain hjj
    clear hi hj
    induction hchain using Relation.ReflTransGen.head_induction_on generalizing i with
    | refl => exact .single (hstep i j _ _ hii hjj (.inl rfl))
    | head hab _ ih =>
      obtain ⟨hmem, hnb⟩ := hab
      obtain ⟨k, hk⟩ := List.mem_iff_getElem?.mp hmem
      exact .head (hstep i k _ _ hii hk (.inr hnb)) (ih k hk)
  · refine C160_three_points _ two_ne_zero n₁ n₂ n₃ hoff _ fun c hc => ⟨⟨(hn n₁ (by simp)).1, (hn n₁ (by simp)).2 c hc⟩,
      ⟨(hn n₂ (by simp)).1, (hn n₂ (by simp)).2 c hc⟩, ⟨(hn n₃ (by simp)).1, (hn n₃ (by simp)).2 c hc⟩⟩

end field

section ordered
variable {K : Type*} [Field K] [LinearOrder K] [IsStrictOrderedRing K] (g : Grid) (spacing origin : K × K × K) (ids : List ℕ)

/-- C160: isotropic elasticity on a voxel mesh. With positive spacing and quadrature weights, `mu > 0` and `lmbda ≥ 0` at every point, and
loads that never fall with the displacement, the problem is strictly monotone. -/
theorem C160_voxels_monotone (hs : 0 < spacing.1 ∧ 0 < spacing.2.1 ∧ 0 < spacing.2.2) (hin : ∀ e ∈ ids, e < g.numCells)
    (d : Discretization K (List (QPoint K)) (List (QPoint K))) (hd : DiscOK d)
    (hv : d.p.vars = [solidVar (g.toMesh spacing origin (some ids))]) {k : ℕ}
    (pts : Fin k → K × K × K) (w : Fin k → K) (hw : ∀ q, 0 < w q) (iv : ℕ → Fin k → List K) (p p' : K) (hp : p ≠ p')
    (hpts : ∀ x ∈ [p, p'], ∀ y ∈ [p, p'], ∀ z ∈ [p, p'], ∃ q, pts q = (x, y, z))
    (hcells : d.cellsIn = (List.range ids.length).map fun c =>
      (EleType.HEX8.refElem 3 pts w).cellPoints (coordsOf (solidX (g.toMesh spacing origin (some ids)))
        ((solidVar (g.toMesh spacing origin (some ids))).cells.getD c [])) (iv c))
    (lam mu : List K → K) (hl : ∀ c q, 0 ≤ lam (iv c q)) (hm : ∀ c q, 0 < mu (iv c q)) (sf : ℕ → SurfaceForm K)
    (hk : FormKernels d 3 (formOf none (some (smallStrainStress 3 lam mu))) sf)
    (hfaces : ∀ fs ∈ d.facesIn, ∀ pts ∈ fs, ∀ q ∈ pts, 0 ≤ (Verif.Spec.fe q 0).jxw)
    (hloads : ∀ s fs, d.facesIn[s]? = some fs → ∀ pts ∈ fs, ∀ q ∈ pts, MonotoneLoad 3 (sf s) q.x q.iv) :
    MonotoneProblem d (solidVar (g.toMesh spacing origin (some ids))) 3 (solidX (g.toMesh spacing origin (some ids)))
      (formOf none (some (smallStrainStress 3 lam mu))) sf := by
  have hvol : 0 < spacing.1 * spacing.2.1 * spacing.2.2 := mul_pos (mul_pos hs.1 hs.2.1) hs.2.2
  refine ⟨hd, hv, rfl, hk, ?_, hfaces, ?_, hloads, ?_⟩
  · intro ps hps q hq
    rw [hcells] at hps
    obtain ⟨c, hc, rfl⟩ := List.mem_map.mp hps
    have hc := List.mem_range.mp hc
    obtain ⟨q, rfl⟩ := (List.mem_ofFn' _ _).mp hq
    obtain ⟨o, ho⟩ := voxel_affine g spacing origin ids (List.getElem?_eq_getElem hc) (hin _ (List.getElem_mem hc))
    show 0 < (EleType.HEX8.refElem 3 pts w).JxW _ q
    have := (C81_affine_cell .HEX8 pts w _ _ _ ho).1 q
    refine lt_of_lt_of_eq (mul_pos ?_ (hw q)) this.symm
    exact lt_of_lt_of_eq hvol (voxelB_det spacing).symm
  · intro ps hps q hq
    rw [hcells] at hps
    obtain ⟨c, hc, rfl⟩ := List.mem_map.mp hps
    obtain ⟨q, rfl⟩ := (List.mem_ofFn' _ _).mp hq
    exact C160_isotropic 3 lam mu _ _ (hl c q) (hm c q)
  · rintro ⟨ps, c⟩ hcp
    rw [hcells, List.mem_zipIdx_iff_getElem?] at hcp
    have hc : c < ids.length := by
      by_contra hcon
      rw [List.getElem?_eq_none (by simpa using hcon)] at hcp
      cases hcp
    rw [List.getElem?_map, List.getElem?_range hc, Option.map_some] at hcp
    injection hcp with hcp
    have hcell : Spec.WellPosed.cell d c = (solidVar (g.toMesh spacing origin (some ids))).cells.getD c [] := by
      unfold Spec.WellPosed.cell cellNodes
      rw [hv]
      rfl
    obtain rfl : ps = _ := hcp.symm
    simp only [hcell]
    exact C160_voxel_cells g spacing origin ids hvol.ne' hin _ pts w (iv c) p p' hp hpts c hc

/-- C160: isotropic linear elasticity on the mesh of a set of grid cells connected through faces, with three held nodes off a line and dead
loads, has exactly one equilibrium for all loads and boundary values. -/
theorem C160_voxels_equilibrium (hs : 0 < spacing.1 ∧ 0 < spacing.2.1 ∧ 0 < spacing.2.2) (hin : ∀ e ∈ ids, e < g.numCells)
    (hconn : FaceConnected g ids) (d : Discretization K (List (QPoint K)) (List (QPoint K))) (hd : DiscOK d)
    (hv : d.p.vars = [solidVar (g.toMesh spacing origin (some ids))]) {k : ℕ}
    (pts : Fin k → K × K × K) (w : Fin k → K) (hw : ∀ q, 0 < w q) (iv : ℕ → Fin k → List K) (p p' : K) (hp : p ≠ p')
    (hpts : ∀ x ∈ [p, p'], ∀ y ∈ [p, p'], ∀ z ∈ [p, p'], ∃ q, pts q = (x, y, z))
    (hcells : d.cellsIn = (List.range ids.length).map fun c =>
      (EleType.HEX8.refElem 3 pts w).cellPoints (coordsOf (solidX (g.toMesh spacing origin (some ids)))
        ((solidVar (g.toMesh spacing origin (some ids))).cells.getD c [])) (iv c))
    (lam mu : List K → K) (hl : ∀ c q, 0 ≤ lam (iv c q)) (hm : ∀ c q, 0 < mu (iv c q)) (sf : ℕ → SurfaceForm K)
    (hk : FormKernels d 3 (formOf none (some (smallStrainStress 3 lam mu))) sf)
    (hfaces : ∀ fs ∈ d.facesIn, ∀ pts ∈ fs, ∀ q ∈ pts, 0 ≤ (Verif.Spec.fe q 0).jxw)
    (hdead : ∀ s p p' x iv, sf s p x iv = sf s p' x iv)
    (bc : DirichletBC K) (hbc : CanonicalBC d.p.n bc) (n₁ n₂ n₃ : ℕ)
    (hn : ∀ n ∈ [n₁, n₂, n₃], n < (g.toMesh spacing origin (some ids)).points.length ∧ ∀ c < 3, n * 3 + c ∈ bc.rows)
    (hoff : let X := solidX (g.toMesh spacing origin (some ids))
      (X n₂ 1 - X n₁ 1) * (X n₃ 2 - X n₁ 2) ≠ (X n₂ 2 - X n₁ 2) * (X n₃ 1 - X n₁ 1) ∨
      (X n₂ 2 - X n₁ 2) * (X n₃ 0 - X n₁ 0) ≠ (X n₂ 0 - X n₁ 0) * (X n₃ 2 - X n₁ 2) ∨
      (X n₂ 0 - X n₁ 0) * (X n₃ 1 - X n₁ 1) ≠ (X n₂ 1 - X n₁ 1) * (X n₃ 0 - X n₁ 0)) : ∃! u, Equilibrium d bc u := by
  have hmono := C160_voxels_monotone g spacing origin ids hs hin d hd hv pts w hw iv p p' hp hpts hcells lam mu hl hm sf hk hfaces
    (fun s fs _ _ _ q _ a b => by rw [hdead s [a] [b]]; simp)
  exact C160_affine_equilibrium hmono (C160_elastic_affine d hd _ hv 3 rfl lam mu sf hk hdead) bc hbc
    (C160_voxels_braced g spacing origin ids ⟨hs.1.ne', hs.2.1.ne', hs.2.2.ne'⟩ hin hconn d hd.wf hv bc.rows n₁ n₂ n₃ hn hoff)

end ordered

section examples

/-- A grid of two by two cells. -/
def exVoxGrid : Grid := ⟨2, 2, 1⟩

theorem exVox_connected : FaceConnected exVoxGrid [1, 3, 2] := by
  have n13 : FaceNeighbours exVoxGrid 1 3 := ⟨0, 1, 0, 1, 1, 0, by decide⟩
  have n31 : FaceNeighbours exVoxGrid 3 1 := ⟨1, 1, 0, 0, 1, 0, by decide⟩
  have n32 : FaceNeighbours exVoxGrid 3 2 := ⟨1, 1, 0, 1, 0, 0, by decide⟩
  have n23 : FaceNeighbours exVoxGrid 2 3 := ⟨1, 0, 0, 1, 1, 0, by decide⟩
  have toHub : ∀ e ∈ [1, 3, 2], Relation.ReflTransGen (fun a b => b ∈ [1, 3, 2] ∧ FaceNeighbours exVoxGrid a b) e 3 := by
    intro e he
    rcases List.mem_cons.mp he with rfl | he
    · exact .single ⟨by decide, n13⟩
    rcases List.mem_cons.mp he with rfl | he
    · exact .refl
    rcases List.mem_cons.mp he with rfl | he
    · exact .single ⟨by decide, n23⟩
    cases he
  have fromHub : ∀ e ∈ [1, 3, 2], Relation.ReflTransGen (fun a b => b ∈ [1, 3, 2] ∧ FaceNeighbours exVoxGrid a b) 3 e := by
    intro e he
    rcases List.mem_cons.mp he with rfl | he
    · exact .single ⟨by decide, n31⟩
    rcases List.mem_cons.mp he with rfl | he
    · exact .refl
    rcases List.mem_cons.mp he with rfl | he
    · exact .single ⟨by decide, n32⟩
    cases he
  exact fun e he f hf => (toHub e he).trans (fromHub f hf)

/-- An L of three cells. -/
def exVoxMesh : Grid.SubMesh (ℚ × ℚ × ℚ) := exVoxGrid.toMesh (1, 2, 3) (0, 0, 0) (some [1, 3, 2])

def exVoxPts (q : Fin 8) : ℚ × ℚ × ℚ :=
  (if q.val % 2 = 0 then 1 / 4 else 3 / 4, if q.val / 2 % 2 = 0 then 1 / 4 else 3 / 4, if q.val / 4 = 0 then 1 / 4 else 3 / 4)

def exVoxForm : WeakForm ℚ := formOf none (some (smallStrainStress 3 (fun _ => 1) (fun _ => 2)))

/-- Elasticity on the L. -/
noncomputable def exVox : Discretization ℚ (List (QPoint ℚ)) (List (QPoint ℚ)) where
  p := ⟨[solidVar exVoxMesh], 3, [], .full⟩
  kv := fun q => ⟨weakFormKernel [solidVar exVoxMesh] 3 exVoxForm q.1 q.2,
    (List.range 576).map fun t => (weakFormKernel [solidVar exVoxMesh] 3 exVoxForm q.1 ((List.range 24).map fun j => if j = t % 24 then 1 else 0)).getD (t / 24) 0⟩
  kf := fun _ q => ⟨surfaceFormKernel [solidVar exVoxMesh] (fun _ _ _ => []) q.1 q.2, (List.range 576).map fun _ => 0⟩
  zv := []
  zf := []
  cellsIn := (List.range 3).map fun c =>
    (EleType.HEX8.refElem 3 exVoxPts fun _ => 1 / 8).cellPoints (coordsOf (solidX exVoxMesh) ((solidVar exVoxMesh).cells.getD c [])) fun _ => []
  facesIn := []
  batch := 1

theorem exVox_ok : DiscOK exVox where
  wf := by
    constructor
    · intro v hv
      obtain rfl := List.mem_singleton.mp hv
      exact ⟨by decide +kernel, by decide +kernel, by decide +kernel⟩
    · intro fc hfc
      exact absurd hfc List.not_mem_nil
  batch := Nat.one_pos
  cells := rfl
  faces := .nil
  volJac := fun _ => by
    simp only [exVox, List.length_map, List.length_range]
    decide +kernel
  volRes := fun a => weakFormKernel_length _ _ _ _ _
  faceJac := fun _ _ => by
    simp only [exVox, List.length_map, List.length_range]
    decide +kernel
  faceRes := fun k x => surfaceFormKernel_length [solidVar exVoxMesh] (fun _ _ _ => []) x.1 x.2

theorem exVox_kernels : FormKernels exVox 3 exVoxForm (fun _ _ _ _ => []) where
  vol := fun _ _ => rfl
  surf := fun _ _ _ => rfl
  cellPts := by
    intro pts hpts q hq
    obtain ⟨c, _, rfl⟩ := List.mem_map.mp hpts
    obtain ⟨q, rfl⟩ := (List.mem_ofFn' _ _).mp hq
    exact ⟨by simp [RefElem.fePoint]; rfl, by simp [RefElem.fePoint]; rfl⟩
  facePts := by
    intro fs hfs
    exact absurd hfs List.not_mem_nil

/-- Three corners of a face held, one of them moved. -/
def exVoxBC : DirichletBC ℚ := ⟨List.range 9, (List.range 48).map (· < 9), [0, 0, 0, 0, 0, 0, 0, 0, 1], 48⟩

example : ∃! u, Equilibrium exVox exVoxBC u :=
  C160_voxels_equilibrium exVoxGrid (1, 2, 3) (0, 0, 0) [1, 3, 2] (by norm_num) (by decide) exVox_connected exVox exVox_ok rfl exVoxPts
    (fun _ => 1 / 8) (fun _ => by norm_num) (fun _ _ => []) (1 / 4) (3 / 4) (by norm_num) (by decide +kernel) rfl (fun _ => 1) (fun _ => 2)
    (fun _ _ => by norm_num) (fun _ _ => by norm_num) (fun _ _ _ _ => []) exVox_kernels (fun fs hfs => absurd hfs List.not_mem_nil)
    (fun _ _ _ _ _ => rfl) exVoxBC ⟨by decide +kernel, by decide +kernel, by decide +kernel, by decide +kernel, by decide +kernel, by decide +kernel⟩
    0 1 2 (by decide +kernel) (by decide +kernel)

end examples

section full

/-- C160: the cells of a whole grid are connected through faces; `to_mesh` without a selection takes all of them. -/
theorem C160_full_grid {K : Type*} [Field K] (g : Grid) (spacing origin : K × K × K) :
    FaceConnected g (List.range g.numCells) ∧ (∀ e ∈ List.range g.numCells, e < g.numCells) ∧
      g.toMesh spacing origin none = g.toMesh spacing origin (some (List.range g.numCells)) := by
  refine ⟨?_, fun e he => List.mem_range.mp he, rfl⟩
  let R : ℕ → ℕ → Prop := fun a b => b ∈ List.range g.numCells ∧ FaceNeighbours g a b
  have step : ∀ i j k i' j' k', i < g.nx → j < g.ny → k < g.nz → i' < g.nx → j' < g.ny → k' < g.nz →
      ((i' = i + 1 ∨ i = i' + 1) ∧ j = j' ∧ k = k' ∨ i = i' ∧ (j' = j + 1 ∨ j = j' + 1) ∧ k = k' ∨
        i = i' ∧ j = j' ∧ (k' = k + 1 ∨ k = k' + 1)) → R (g.cellId (i, j, k)) (g.cellId (i', j', k')) := by
    intro i j k i' j' k' hi hj hk hi' hj' hk' h
    exact ⟨List.mem_range.mpr (cellId_lt g (i', j', k') hi' hj' hk'), i, j, k, i', j', k', hi, hj, hk, hi', hj', hk', rfl, rfl, h⟩
  have hub : ∀ i j k, i < g.nx → j < g.ny → k < g.nz → Relation.ReflTransGen R (g.cellId (i, j, k)) (g.cellId (0, 0, 0)) ∧
      Relation.ReflTransGen R (g.cellId (0, 0, 0)) (g.cellId (i, j, k)) := by
    intro i
    induction i with
    | succ i ih =>
      intro j k hi hj hk
      obtain ⟨a, b⟩ := ih j k (by omega) hj hk
      exact ⟨.head (step (i + 1) j k i j k hi hj hk (by omega) hj hk (by omega)) a, b.tail (step i j k (i + 1) j k (by omega) hj hk hi hj hk (by omega))⟩
    | zero =>
      intro j
      induction j with
      | succ j ih =>
        intro k hi hj hk
        obtain ⟨a, b⟩ := ih k hi (by omega) hk
        exact ⟨.head (step 0 (j + 1) k 0 j k hi hj hk hi (by omega) hk (by omega)) a,
          b.tail (step 0 j k 0 (j + 1) k hi (by omega) hk hi hj hk (by omega))⟩
      | zero =>
        intro k
        induction k with
        | zero => intro _ _ _; exact ⟨.refl, .refl⟩
        | succ k ih =>
          intro hi hj hk
          obtain ⟨a, b⟩ := ih hi hj (by omega)
          exact ⟨.head (step 0 0 (k + 1) 0 0 k hi hj hk hi hj (by omega) (by omega)) a,
            b.tail (step 0 0 k 0 0 (k + 1) hi hj (by omega) hi hj hk (by omega))⟩
  intro e he f hf
  obtain ⟨e0, e1, e2, e3⟩ := cellId_cellIjk g e (List.mem_range.mp he)
  obtain ⟨f0, f1, f2, f3⟩ := cellId_cellIjk g f (List.mem_range.mp hf)
  have h1 := (hub _ _ _ e1 e2 e3).1
  have h2 := (hub _ _ _ f1 f2 f3).2
  rw [e0] at h1
  rw [f0] at h2
  exact h1.trans h2

/-- Two cells that meet in an edge only are not connected through faces. -/
example : ¬ FaceConnected exVoxGrid [0, 3] := by
  intro h
  have h03 := h 0 (by decide) 3 (by decide)
  rcases h03.cases_head with h | ⟨c, ⟨hc, hn⟩, _⟩
  · exact absurd h (by decide)
  · have key : ∀ f ∈ [0, 3], ¬ FaceNeighbours exVoxGrid 0 f := by
      rintro f hf ⟨i, j, k, i', j', k', hi, hj, hk, hi', hj', hk', h1, h2, hadj⟩
      simp only [exVoxGrid, Grid.cellId] at *
      have : f = 0 ∨ f = 3 := by simpa using hf
      omega
    exact key c hc hn

end full

end Verif.Props
