import Verif.Lemmas.Grid
import Verif.Model.Band
import Mathlib.Algebra.Order.Floor.Ring
import Mathlib.Algebra.Order.Field.Rat
import Mathlib.Data.List.GetD
import Mathlib.Tactic.NormNum
import Mathlib.Tactic.FieldSimp

/-!
# C29, C30, C31: the structured grid
-/

namespace Verif.Props

open Verif.Model Verif.Lemmas

/-! ## C29 -/

/-- C29: on every grid `cell_id` maps the in-range index triples bijectively onto `0 … num_cells - 1`, with
inverse `cell_ijk`. -/
theorem C29_cell_numbering (g : Grid) :
    (∀ cx cy cz, cx < g.nx → cy < g.ny → cz < g.nz →
      g.cellId (cx, cy, cz) < g.nx * g.ny * g.nz ∧ g.cellIjk (g.cellId (cx, cy, cz)) = (cx, cy, cz)) ∧
    (∀ e, e < g.nx * g.ny * g.nz → ∃ cx cy cz, g.cellIjk e = (cx, cy, cz) ∧ cx < g.nx ∧ cy < g.ny ∧ cz < g.nz ∧
      g.cellId (cx, cy, cz) = e) := by
  constructor
  · intro cx cy cz h1 h2 h3
    exact ⟨cellId_lt g _ h1 h2 h3, cellIjk_cellId g _ h2 h3⟩
  · intro e he
    obtain ⟨h0, h1, h2, h3⟩ := cellId_cellIjk g e he
    exact ⟨_, _, _, rfl, h1, h2, h3, h0⟩

/-- C29: on every grid `node_id` maps the index triples `i ≤ nx, j ≤ ny, k ≤ nz` bijectively onto
`0 … num_nodes - 1`. -/
theorem C29_node_numbering (g : Grid) :
    (∀ i j k, i ≤ g.nx → j ≤ g.ny → k ≤ g.nz → g.nodeId (i, j, k) < g.numNodes) ∧
    (∀ i j k i' j' k', i ≤ g.nx → j ≤ g.ny → k ≤ g.nz → i' ≤ g.nx → j' ≤ g.ny → k' ≤ g.nz →
      g.nodeId (i, j, k) = g.nodeId (i', j', k') → i = i' ∧ j = j' ∧ k = k') ∧
    (∀ n < g.numNodes, ∃ i j k, i ≤ g.nx ∧ j ≤ g.ny ∧ k ≤ g.nz ∧ g.nodeId (i, j, k) = n) := by
  refine ⟨?_, ?_, ?_⟩
  · intro i j k h1 h2 h3
    exact lin_lt _ _ _ _ _ _ (Nat.lt_succ_of_le h1) (Nat.lt_succ_of_le h2) (Nat.lt_succ_of_le h3)
  · intro i j k i' j' k' _ h2 h3 _ h5 h6 h
    have := nodeId_inj g (p := (i, j, k)) (q := (i', j', k')) h2 h3 h5 h6 h
    simpa using this
  · intro n hn
    obtain ⟨h0, h1, h2, h3⟩ := lin_encode (g.nx + 1) (g.ny + 1) (g.nz + 1) n hn
    exact ⟨_, _, _, Nat.lt_succ_iff.1 h1, Nat.lt_succ_iff.1 h2, Nat.lt_succ_iff.1 h3, h0⟩

/-- C29: `nodes_where` returns exactly the nodes whose index triple satisfies the predicate, each once and in
increasing order. -/
theorem C29_nodes_where (g : Grid) (pred : ℕ × ℕ × ℕ → Bool) :
    (g.nodesWhere pred).Pairwise (· < ·) ∧
    ∀ n, n ∈ g.nodesWhere pred ↔ ∃ i j k, i ≤ g.nx ∧ j ≤ g.ny ∧ k ≤ g.nz ∧ g.nodeId (i, j, k) = n ∧
      pred (i, j, k) = true := by
  constructor
  · unfold Grid.nodesWhere
    rw [List.pairwise_map]
    apply List.Pairwise.filter
    have key : ∀ a b c a' b' c', b ≤ g.ny → c ≤ g.nz → b' ≤ g.ny → c' ≤ g.nz →
        (a < a' ∨ (a = a' ∧ (b < b' ∨ (b = b' ∧ c < c')))) → g.nodeId (a, b, c) < g.nodeId (a', b', c') := by
      intro a b c a' b' c' hb hc hb' hc' h
      unfold Grid.nodeId
      simp only
      rcases h with h | ⟨rfl, h | ⟨rfl, h⟩⟩
      · have h1 : a * (g.ny + 1) + b + 1 ≤ a' * (g.ny + 1) := by nlinarith
        nlinarith
      · nlinarith
      · omega
    rw [List.pairwise_flatMap]
    constructor
    · intro a _
      rw [List.pairwise_flatMap]
      constructor
      · intro b hb
        rw [List.pairwise_map]
        have : ((List.range (g.nz + 1))).Pairwise (· < ·) := List.pairwise_lt_range
        refine this.imp_of_mem ?_
        intro c c' hc hc' h
        rw [List.mem_range] at hb hc hc'
        exact key _ _ _ _ _ _ (by omega) (by omega) (by omega) (by omega) (Or.inr ⟨rfl, Or.inr ⟨rfl, h⟩⟩)
      · have : ((List.range (g.ny + 1))).Pairwise (· < ·) := List.pairwise_lt_range
        refine this.imp_of_mem ?_
        intro b b' hb hb' h x hx y hy
        rw [List.mem_map] at hx hy
        obtain ⟨c, hc, rfl⟩ := hx
        obtain ⟨c', hc', rfl⟩ := hy
        rw [List.mem_range] at hb hb' hc hc'
        exact key _ _ _ _ _ _ (by omega) (by omega) (by omega) (by omega) (Or.inr ⟨rfl, Or.inl h⟩)
    · have : ((List.range (g.nx + 1))).Pairwise (· < ·) := List.pairwise_lt_range
      refine this.imp ?_
      intro a a' h x hx y hy
      rw [List.mem_flatMap] at hx hy
      obtain ⟨b, hb, hx⟩ := hx
      obtain ⟨b', hb', hy⟩ := hy
      rw [List.mem_map] at hx hy
      obtain ⟨c, hc, rfl⟩ := hx
      obtain ⟨c', hc', rfl⟩ := hy
      rw [List.mem_range] at hb hb' hc hc'
      exact key _ _ _ _ _ _ (by omega) (by omega) (by omega) (by omega) (Or.inl h)
  · intro n
    unfold Grid.nodesWhere
    simp only [List.mem_map, List.mem_filter, List.mem_flatMap, List.mem_range]
    constructor
    · rintro ⟨p, ⟨⟨i, hi, j, hj, k, hk, rfl⟩, hp⟩, rfl⟩
      exact ⟨i, j, k, by omega, by omega, by omega, rfl, hp⟩
    · rintro ⟨i, j, k, hi, hj, hk, rfl, hp⟩
      exact ⟨(i, j, k), ⟨⟨i, by omega, j, by omega, k, by omega, rfl⟩, hp⟩, rfl⟩

/-- A 2×3×4 grid: cell 17 is (1, 1, 1), node 59 is the far corner. -/
example : (⟨2, 3, 4⟩ : Grid).cellIjk 17 = (1, 1, 1) ∧ (⟨2, 3, 4⟩ : Grid).cellId (1, 1, 1) = 17 ∧
    (⟨2, 3, 4⟩ : Grid).nodeId (2, 3, 4) = 59 ∧ (⟨2, 3, 4⟩ : Grid).numNodes = 60 := by decide

/-! ## C30 -/

/-- The corners of the reference hexahedron in HEX8 (meshio / Abaqus) node order: bottom face, then top face,
each counterclockwise. -/
def hex8Corner : List (ℕ × ℕ × ℕ) :=
  [(0, 0, 0), (1, 0, 0), (1, 1, 0), (0, 1, 0), (0, 0, 1), (1, 0, 1), (1, 1, 1), (0, 1, 1)]

/-- C30: the nodes of an in-range cell are eight, distinct, below `num_nodes`, and are exactly the eight
corners of the cell; cells with the same node set are the same. -/
theorem C30_connectivity (g : Grid) :
    (∀ cx cy cz, cx < g.nx → cy < g.ny → cz < g.nz →
      (g.cellToNodes (g.cellId (cx, cy, cz))).length = 8 ∧ (g.cellToNodes (g.cellId (cx, cy, cz))).Nodup ∧
      ∀ n, n ∈ g.cellToNodes (g.cellId (cx, cy, cz)) ↔
        ∃ i j k, g.nodeId (i, j, k) = n ∧ (i = cx ∨ i = cx + 1) ∧ (j = cy ∨ j = cy + 1) ∧ (k = cz ∨ k = cz + 1)) ∧
    (∀ e < g.numCells, ∀ n ∈ g.cellToNodes e, n < g.numNodes) ∧
    (∀ e < g.numCells, ∀ e' < g.numCells, (∀ n, n ∈ g.cellToNodes e ↔ n ∈ g.cellToNodes e') → e = e') := by
  refine ⟨?_, ?_, ?_⟩
  · intro cx cy cz h1 h2 h3
    have he := cellId_lt g (cx, cy, cz) h1 h2 h3
    have hd := cellIjk_cellId g (cx, cy, cz) h2 h3
    refine ⟨rfl, ?_, ?_⟩
    · rw [cellToNodes_eq, hd]
      apply List.Nodup.map_on
      · intro o ho o' ho' h
        obtain ⟨a1, a2, a3⟩ := hexOffsets_le ho
        obtain ⟨b1, b2, b3⟩ := hexOffsets_le ho'
        have := nodeId_inj g (by simp only; omega) (by simp only; omega) (by simp only; omega)
          (by simp only; omega) h
        obtain ⟨x, y, z⟩ := o
        obtain ⟨x', y', z'⟩ := o'
        simp only [Prod.mk.injEq, Nat.add_left_cancel_iff] at this ⊢
        exact this
      · decide
    · intro n
      constructor
      · intro hn
        rw [cellToNodes_eq, hd, List.mem_map] at hn
        obtain ⟨o, ho, rfl⟩ := hn
        obtain ⟨a1, a2, a3⟩ := hexOffsets_le ho
        exact ⟨_, _, _, rfl, by simp only; omega, by simp only; omega, by simp only; omega⟩
      · rintro ⟨i, j, k, rfl, hi, hj, hk⟩
        rw [mem_cellToNodes g he (by omega) (by omega), hd]
        simp only
        omega
  · intro e he n hn
    obtain ⟨_, h1, h2, h3⟩ := cellId_cellIjk g e he
    rw [cellToNodes_eq, List.mem_map] at hn
    obtain ⟨o, ho, rfl⟩ := hn
    obtain ⟨a1, a2, a3⟩ := hexOffsets_le ho
    exact lin_lt _ _ _ _ _ _ (show _ + o.1 < g.nx + 1 by omega) (show _ + o.2.1 < g.ny + 1 by omega) (show _ + o.2.2 < g.nz + 1 by omega)
  · intro e he e' he' h
    obtain ⟨h0, h1, h2, h3⟩ := cellId_cellIjk g e he
    obtain ⟨k0, k1, k2, k3⟩ := cellId_cellIjk g e' he'
    have a := (h (g.nodeId ((g.cellIjk e).1, (g.cellIjk e).2.1, (g.cellIjk e).2.2))).1
      ((mem_cellToNodes g he (by omega) (by omega)).2 (by omega))
    rw [mem_cellToNodes g he' (by omega) (by omega)] at a
    have b := (h (g.nodeId ((g.cellIjk e').1, (g.cellIjk e').2.1, (g.cellIjk e').2.2))).2
      ((mem_cellToNodes g he' (by omega) (by omega)).2 (by omega))
    rw [mem_cellToNodes g he (by omega) (by omega)] at b
    rw [← h0, ← k0]
    congr 1
    have e1 : (g.cellIjk e).1 = (g.cellIjk e').1 := by omega
    have e2 : (g.cellIjk e).2.1 = (g.cellIjk e').2.1 := by omega
    have e3 : (g.cellIjk e).2.2 = (g.cellIjk e').2.2 := by omega
    exact Prod.ext e1 (Prod.ext e2 e3)

section
variable {K : Type*} [Field K]

/-- Difference of two points. -/
def vsub (p q : K × K × K) : K × K × K := (p.1 - q.1, p.2.1 - q.2.1, p.2.2 - q.2.2)

/-- The determinant of three vectors. -/
def det3 (u v w : K × K × K) : K :=
  u.1 * (v.2.1 * w.2.2 - v.2.2 * w.2.1) - u.2.1 * (v.1 * w.2.2 - v.2.2 * w.1) + u.2.2 * (v.1 * w.2.1 - v.2.1 * w.1)

/-- C30, node order: the nodes of a cell are placed as the HEX8 reference corners are: with `x_l` the
coordinates of local node `l`, local node `l` with reference corner `(r, s, t)` is at
`x_0 + r (x_1 - x_0) + s (x_3 - x_0) + t (x_4 - x_0)`, and the three edge vectors span the cell volume with
positive orientation. -/
theorem C30_hex8_node_order (g : Grid) (spacing origin : K × K × K) (e : ℕ) (he : e < g.numCells) :
    ∃ x : ℕ → K × K × K, (∀ l < 8, (g.cellToNodes e)[l]?.map (g.nodeCoords spacing origin) = some (x l)) ∧
      (∀ (l r s t : ℕ), hex8Corner[l]? = some (r, s, t) →
        x l = ((x 0).1 + r * (vsub (x 1) (x 0)).1 + s * (vsub (x 3) (x 0)).1 + t * (vsub (x 4) (x 0)).1,
          (x 0).2.1 + r * (vsub (x 1) (x 0)).2.1 + s * (vsub (x 3) (x 0)).2.1 + t * (vsub (x 4) (x 0)).2.1,
          (x 0).2.2 + r * (vsub (x 1) (x 0)).2.2 + s * (vsub (x 3) (x 0)).2.2 + t * (vsub (x 4) (x 0)).2.2)) ∧
      det3 (vsub (x 1) (x 0)) (vsub (x 3) (x 0)) (vsub (x 4) (x 0)) = spacing.1 * spacing.2.1 * spacing.2.2 := by
  obtain ⟨_, h1, h2, h3⟩ := cellId_cellIjk g e he
  set c := g.cellIjk e with hc
  let o : ℕ → ℕ × ℕ × ℕ := fun l => hexOffsets.getD l (0, 0, 0)
  have ho : ∀ l, (o l).1 ≤ 1 ∧ (o l).2.1 ≤ 1 ∧ (o l).2.2 ≤ 1 := by
    intro l
    rcases Nat.lt_or_ge l 8 with h | h
    · have : ∀ l < 8, (hexOffsets.getD l (0, 0, 0)).1 ≤ 1 ∧ (hexOffsets.getD l (0, 0, 0)).2.1 ≤ 1 ∧
          (hexOffsets.getD l (0, 0, 0)).2.2 ≤ 1 := by decide
      exact this l h
    · have : o l = (0, 0, 0) := List.getD_eq_default _ _ h
      rw [this]; simp
  let x : ℕ → K × K × K := fun l =>
    (origin.1 + ((c.1 + (o l).1 : ℕ) : K) * spacing.1, origin.2.1 + ((c.2.1 + (o l).2.1 : ℕ) : K) * spacing.2.1,
      origin.2.2 + ((c.2.2 + (o l).2.2 : ℕ) : K) * spacing.2.2)
  refine ⟨x, ?_, ?_, ?_⟩
  · intro l hl
    have : (g.cellToNodes e)[l]? = some (g.nodeId (c.1 + (o l).1, c.2.1 + (o l).2.1, c.2.2 + (o l).2.2)) := by
      rw [cellToNodes_eq, List.getElem?_map, ← hc]
      have : hexOffsets[l]? = some (o l) := by
        have hl' : l < hexOffsets.length := hl
        rw [List.getElem?_eq_getElem hl']
        simp only [o, Option.some.injEq]
        rw [List.getD_eq_getElem _ _ hl']
      rw [this]; rfl
    rw [this, Option.map_some]
    unfold Grid.nodeCoords
    obtain ⟨_, o2, o3⟩ := ho l
    rw [nodeIjk_nodeId g _ (by simp only; omega) (by simp only; omega)]
  · intro l r s t hl
    have hl8 : l < 8 := by
      by_contra h
      rw [List.getElem?_eq_none (by simp [hex8Corner]; omega)] at hl
      simp at hl
    have hz : ∀ l < 8, ∀ q ∈ hex8Corner[l]?,
        ((o l).1 : ℤ) = (o 0).1 + q.1 * ((o 1).1 - (o 0).1) + q.2.1 * ((o 3).1 - (o 0).1) + q.2.2 * ((o 4).1 - (o 0).1) ∧
        ((o l).2.1 : ℤ) = (o 0).2.1 + q.1 * ((o 1).2.1 - (o 0).2.1) + q.2.1 * ((o 3).2.1 - (o 0).2.1) + q.2.2 * ((o 4).2.1 - (o 0).2.1) ∧
        ((o l).2.2 : ℤ) = (o 0).2.2 + q.1 * ((o 1).2.2 - (o 0).2.2) + q.2.1 * ((o 3).2.2 - (o 0).2.2) + q.2.2 * ((o 4).2.2 - (o 0).2.2) := by
      decide
    obtain ⟨z1, z2, z3⟩ := hz l hl8 (r, s, t) (by rw [hl]; rfl)
    have z1' := congrArg (Int.cast : ℤ → K) z1
    have z2' := congrArg (Int.cast : ℤ → K) z2
    have z3' := congrArg (Int.cast : ℤ → K) z3
    push_cast at z1' z2' z3'
    simp only [x, vsub]
    push_cast
    rw [z1', z2', z3']
    refine Prod.ext ?_ (Prod.ext ?_ ?_) <;> simp only <;> ring
  · have e0 : o 0 = (0, 1, 1) := rfl
    have e1 : o 1 = (0, 0, 1) := rfl
    have e3 : o 3 = (0, 1, 0) := rfl
    have e4 : o 4 = (1, 1, 1) := rfl
    simp only [x, vsub, det3, e0, e1, e3, e4]
    push_cast
    ring

/-- C30: `to_mesh` lists, for the whole grid or the given cells, the same connectivity in terms of node
positions: corner `l` of mesh cell `c` is the mesh point at the coordinates of grid node
`cell_to_nodes(cell)[l]`. -/
theorem C30_to_mesh (g : Grid) (spacing origin : K × K × K) (ids : Option (List ℕ)) :
    let cellIds := ids.getD (List.range (g.nx * g.ny * g.nz))
    let mesh := g.toMesh spacing origin ids
    mesh.cells.length = cellIds.length ∧
    ∀ c e : ℕ, cellIds[c]? = some e → ∃ row : List ℕ, mesh.cells[c]? = some row ∧ row.length = 8 ∧
      ∀ l n : ℕ, (g.cellToNodes e)[l]? = some n →
        ∃ m : ℕ, row[l]? = some m ∧ mesh.points[m]? = some (g.nodeCoords spacing origin n) := by
  intro cellIds mesh
  have hm : mesh = (Grid.compactMesh (g.nodeCoords spacing origin) (cellIds.map g.cellToNodes)).2 := by
    cases ids <;> rfl
  rw [hm]
  unfold Grid.compactMesh
  refine ⟨by simp, ?_⟩
  intro c e hc
  refine ⟨(g.cellToNodes e).map (searchsorted (unique (cellIds.map g.cellToNodes).flatten)), by simp [hc],
    by rw [List.length_map]; rfl, ?_⟩
  intro l n hl
  refine ⟨searchsorted (unique (cellIds.map g.cellToNodes).flatten) n, by simp [hl], ?_⟩
  have hmem : n ∈ unique (cellIds.map g.cellToNodes).flatten := by
    rw [mem_unique, List.mem_flatten]
    exact ⟨g.cellToNodes e, List.mem_map_of_mem (List.mem_of_getElem? hc), List.mem_of_getElem? hl⟩
  simp only [List.getElem?_map]
  rw [searchsorted_sorted (unique_lt _) hmem]
  rfl

end

/-- Cell 0 of a 1×1×2 grid and the cell next to it share four nodes. -/
example : (⟨1, 1, 2⟩ : Grid).cellToNodes 0 = [4, 1, 0, 3, 10, 7, 6, 9] ∧
    (⟨1, 1, 2⟩ : Grid).cellToNodes 1 = [5, 2, 1, 4, 11, 8, 7, 10] := by decide

/-! ## C31 -/

/-- Cells `e` and `f` of the grid differ by at most `m` in every direction. -/
def NearCells (g : Grid) (m : ℕ) (e f : ℕ) : Prop :=
  ∃ x y z x' y' z', x < g.nx ∧ y < g.ny ∧ z < g.nz ∧ x' < g.nx ∧ y' < g.ny ∧ z' < g.nz ∧
    g.cellId (x, y, z) = e ∧ g.cellId (x', y', z') = f ∧
    (x ≤ x' + m ∧ x' ≤ x + m) ∧ (y ≤ y' + m ∧ y' ≤ y + m) ∧ (z ≤ z' + m ∧ z' ≤ z + m)

theorem mem_offsetRange {m : ℕ} {d : ℤ} : d ∈ Grid.offsetRange m ↔ -(m : ℤ) ≤ d ∧ d ≤ m := by
  unfold Grid.offsetRange
  rw [List.mem_map]
  constructor
  · rintro ⟨i, hi, rfl⟩
    rw [List.mem_range] at hi
    omega
  · rintro ⟨h1, h2⟩
    exact ⟨(d + m).toNat, by rw [List.mem_range]; omega, by omega⟩

theorem nearCells_iff (g : Grid) (m : ℕ) {e : ℕ} (he : e < g.numCells) (f : ℕ) :
    NearCells g m e f ↔ f < g.numCells ∧
      ((g.cellIjk e).1 ≤ (g.cellIjk f).1 + m ∧ (g.cellIjk f).1 ≤ (g.cellIjk e).1 + m) ∧
      ((g.cellIjk e).2.1 ≤ (g.cellIjk f).2.1 + m ∧ (g.cellIjk f).2.1 ≤ (g.cellIjk e).2.1 + m) ∧
      ((g.cellIjk e).2.2 ≤ (g.cellIjk f).2.2 + m ∧ (g.cellIjk f).2.2 ≤ (g.cellIjk e).2.2 + m) := by
  constructor
  · rintro ⟨x, y, z, x', y', z', h1, h2, h3, h4, h5, h6, h7, h8, h9, h10, h11⟩
    subst h7 h8
    rw [cellIjk_cellId g _ h2 h3, cellIjk_cellId g _ h5 h6]
    exact ⟨cellId_lt g _ h4 h5 h6, h9, h10, h11⟩
  · rintro ⟨hf, h9, h10, h11⟩
    obtain ⟨h0, h1, h2, h3⟩ := cellId_cellIjk g e he
    obtain ⟨k0, k1, k2, k3⟩ := cellId_cellIjk g f hf
    exact ⟨_, _, _, _, _, _, h1, h2, h3, k1, k2, k3, h0, k0, h9, h10, h11⟩

theorem shiftCell_some (g : Grid) (c : ℕ × ℕ × ℕ) (d : ℤ × ℤ × ℤ) (f : ℕ) :
    g.shiftCell c d = some f ↔ ∃ x y z, x < g.nx ∧ y < g.ny ∧ z < g.nz ∧ (x : ℤ) = c.1 + d.1 ∧
      (y : ℤ) = c.2.1 + d.2.1 ∧ (z : ℤ) = c.2.2 + d.2.2 ∧ g.cellId (x, y, z) = f := by
  unfold Grid.shiftCell
  simp only
  split
  · rename_i h
    obtain ⟨h1, h2, h3, h4, h5, h6⟩ := h
    obtain ⟨x, hx⟩ := Int.eq_ofNat_of_zero_le h1
    obtain ⟨y, hy⟩ := Int.eq_ofNat_of_zero_le h3
    obtain ⟨z, hz⟩ := Int.eq_ofNat_of_zero_le h5
    rw [hx, hy, hz]
    have e : (((x : ℤ) * g.ny + y) * g.nz + z).toNat = g.cellId (x, y, z) := by
      unfold Grid.cellId
      simp only
      have : ((x : ℤ) * g.ny + y) * g.nz + z = (((x * g.ny + y) * g.nz + z : ℕ) : ℤ) := by push_cast; ring
      rw [this, Int.toNat_natCast]
    rw [e, Option.some.injEq]
    constructor
    · intro h
      exact ⟨x, y, z, by omega, by omega, by omega, rfl, rfl, rfl, h⟩
    · rintro ⟨x', y', z', _, _, _, e1, e2, e3, h⟩
      have : x' = x := by omega
      have : y' = y := by omega
      have : z' = z := by omega
      subst_vars
      rfl
  · rename_i h
    constructor
    · intro h'; simp at h'
    · rintro ⟨x, y, z, h1, h2, h3, e1, e2, e3, _⟩
      exact absurd (by omega) h

theorem mem_dilate (g : Grid) (S : List ℕ) (m : ℤ) (hm : 0 < m) (hS : ∀ e ∈ S, e < g.numCells) (f : ℕ) :
    f ∈ g.dilateCells S m ↔ ∃ e ∈ S, NearCells g m.toNat e f := by
  unfold Grid.dilateCells
  rw [if_neg (by omega)]
  simp only
  rw [mem_unique, List.mem_flatten]
  constructor
  · rintro ⟨l, hl, hf⟩
    simp only [List.mem_flatMap, List.mem_map] at hl
    obtain ⟨dx, hdx, dy, hdy, dz, hdz, rfl⟩ := hl
    rw [List.mem_filterMap] at hf
    obtain ⟨e, he, hs⟩ := hf
    rw [shiftCell_some] at hs
    obtain ⟨x, y, z, h1, h2, h3, e1, e2, e3, rfl⟩ := hs
    rw [mem_offsetRange] at hdx hdy hdz
    refine ⟨e, he, (nearCells_iff g _ (hS e he) _).2 ⟨cellId_lt g _ h1 h2 h3, ?_⟩⟩
    rw [cellIjk_cellId g _ h2 h3]
    simp only at e1 e2 e3 ⊢
    omega
  · rintro ⟨e, he, hn⟩
    obtain ⟨hf, h1, h2, h3⟩ := (nearCells_iff g _ (hS e he) _).1 hn
    obtain ⟨k0, k1, k2, k3⟩ := cellId_cellIjk g f hf
    have hs : g.shiftCell (g.cellIjk e) (((g.cellIjk f).1 : ℤ) - (g.cellIjk e).1,
        ((g.cellIjk f).2.1 : ℤ) - (g.cellIjk e).2.1, ((g.cellIjk f).2.2 : ℤ) - (g.cellIjk e).2.2) = some f :=
      (shiftCell_some g _ _ f).2 ⟨_, _, _, k1, k2, k3, by simp, by simp, by simp, k0⟩
    refine ⟨S.filterMap fun e' => g.shiftCell (g.cellIjk e') (((g.cellIjk f).1 : ℤ) - (g.cellIjk e).1,
        ((g.cellIjk f).2.1 : ℤ) - (g.cellIjk e).2.1, ((g.cellIjk f).2.2 : ℤ) - (g.cellIjk e).2.2), ?_,
      List.mem_filterMap.2 ⟨e, he, hs⟩⟩
    simp only [List.mem_flatMap, List.mem_map]
    exact ⟨_, mem_offsetRange.2 (by omega), _, mem_offsetRange.2 (by omega), _, mem_offsetRange.2 (by omega), rfl⟩

/-- C31: `dilate_cells` returns, in increasing order and without duplicates, exactly the cells of the grid
whose index differs from that of some seed cell by at most the margin in every direction (a margin of zero or
less leaves the seed set). -/
theorem C31_dilation_is_box_neighbourhood (g : Grid) (S : List ℕ) (m : ℤ) (hS : ∀ e ∈ S, e < g.numCells) :
    (g.dilateCells S m).Pairwise (· < ·) ∧
    ∀ f, f ∈ g.dilateCells S m ↔ ∃ e ∈ S, NearCells g m.toNat e f := by
  constructor
  · unfold Grid.dilateCells
    split <;> exact unique_lt _
  · intro f
    by_cases hm : 0 < m
    · exact mem_dilate g S m hm hS f
    · unfold Grid.dilateCells
      rw [if_pos (by omega), mem_unique]
      have : m.toNat = 0 := by omega
      rw [this]
      constructor
      · intro hf
        exact ⟨f, hf, (nearCells_iff g 0 (hS f hf) f).2 ⟨hS f hf, by omega⟩⟩
      · rintro ⟨e, he, hn⟩
        obtain ⟨hf, h1, h2, h3⟩ := (nearCells_iff g 0 (hS e he) f).1 hn
        have e1 : (g.cellIjk e).1 = (g.cellIjk f).1 := by omega
        have e2 : (g.cellIjk e).2.1 = (g.cellIjk f).2.1 := by omega
        have e3 : (g.cellIjk e).2.2 = (g.cellIjk f).2.2 := by omega
        have : e = f := by
          rw [← (cellId_cellIjk g e (hS e he)).1, ← (cellId_cellIjk g f hf).1]
          congr 1
          exact Prod.ext e1 (Prod.ext e2 e3)
        rw [← this]; exact he

theorem dilate_lt (g : Grid) (S : List ℕ) (m : ℤ) (hS : ∀ e ∈ S, e < g.numCells) :
    ∀ e ∈ g.dilateCells S m, e < g.numCells := by
  intro e he
  obtain ⟨e0, h0, hn⟩ := ((C31_dilation_is_box_neighbourhood g S m hS).2 e).1 he
  exact ((nearCells_iff g _ (hS e0 h0) e).1 hn).1

/-- A point between two numbers at distance at most `a + b`. -/
theorem between (a b x y n : ℕ) (hx : x < n) (hy : y < n) (h1 : x ≤ y + (a + b)) (h2 : y ≤ x + (a + b)) :
    ∃ z < n, (x ≤ z + a ∧ z ≤ x + a) ∧ (z ≤ y + b ∧ y ≤ z + b) := by
  by_cases h : x ≤ y
  · exact ⟨min (x + a) y, by omega, by omega, by omega⟩
  · exact ⟨max (x - a) y, by omega, by omega, by omega⟩

/-- C31: dilating by `a` and then by `b` is dilating by `a + b`. -/
theorem C31_dilations_add (g : Grid) (S : List ℕ) (a b : ℕ) (hS : ∀ e ∈ S, e < g.numCells) :
    g.dilateCells (g.dilateCells S a) b = g.dilateCells S (a + b : ℕ) := by
  apply sorted_ext
  · exact (C31_dilation_is_box_neighbourhood g _ _ (dilate_lt g S a hS)).1
  · exact (C31_dilation_is_box_neighbourhood g _ _ hS).1
  · intro f
    rw [(C31_dilation_is_box_neighbourhood g _ _ (dilate_lt g S a hS)).2 f,
      (C31_dilation_is_box_neighbourhood g _ _ hS).2 f]
    simp only [Int.toNat_natCast]
    constructor
    · rintro ⟨c, hc, hcf⟩
      obtain ⟨e, he, hec⟩ := ((C31_dilation_is_box_neighbourhood g S a hS).2 c).1 hc
      simp only [Int.toNat_natCast] at hec
      obtain ⟨hcl, c1, c2, c3⟩ := (nearCells_iff g a (hS e he) c).1 hec
      obtain ⟨hfl, f1, f2, f3⟩ := (nearCells_iff g b hcl f).1 hcf
      exact ⟨e, he, (nearCells_iff g _ (hS e he) f).2 ⟨hfl, by omega, by omega, by omega⟩⟩
    · rintro ⟨e, he, hn⟩
      obtain ⟨hfl, f1, f2, f3⟩ := (nearCells_iff g _ (hS e he) f).1 hn
      obtain ⟨h0, h1, h2, h3⟩ := cellId_cellIjk g e (hS e he)
      obtain ⟨k0, k1, k2, k3⟩ := cellId_cellIjk g f hfl
      obtain ⟨x, hx, x1, x2⟩ := between a b _ _ _ h1 k1 f1.1 f1.2
      obtain ⟨y, hy, y1, y2⟩ := between a b _ _ _ h2 k2 f2.1 f2.2
      obtain ⟨z, hz, z1, z2⟩ := between a b _ _ _ h3 k3 f3.1 f3.2
      have hid := cellIjk_cellId g (x, y, z) hy hz
      refine ⟨g.cellId (x, y, z), ((C31_dilation_is_box_neighbourhood g S a hS).2 _).2
        ⟨e, he, (nearCells_iff g _ (hS e he) _).2 ⟨cellId_lt g _ hx hy hz, ?_⟩⟩,
        (nearCells_iff g _ (cellId_lt g _ hx hy hz) f).2 ⟨hfl, ?_⟩⟩
      · rw [hid]
        simp only [Int.toNat_natCast]
        exact ⟨x1, y1, z1⟩
      · rw [hid]
        exact ⟨x2, y2, z2⟩

/-- Sharing a node, in terms of indices. -/
theorem share_node_iff (g : Grid) {e f : ℕ} (he : e < g.numCells) (hf : f < g.numCells) :
    (∃ n, n ∈ g.cellToNodes e ∧ n ∈ g.cellToNodes f) ↔ NearCells g 1 e f := by
  obtain ⟨_, h1, h2, h3⟩ := cellId_cellIjk g e he
  obtain ⟨_, k1, k2, k3⟩ := cellId_cellIjk g f hf
  rw [nearCells_iff g 1 he]
  constructor
  · rintro ⟨n, hn, hn'⟩
    refine ⟨hf, ?_⟩
    rw [cellToNodes_eq, List.mem_map] at hn
    obtain ⟨o, ho, rfl⟩ := hn
    obtain ⟨a1, a2, a3⟩ := hexOffsets_le ho
    rw [mem_cellToNodes g hf (by omega) (by omega)] at hn'
    omega
  · rintro ⟨_, a, b, c⟩
    refine ⟨g.nodeId (max (g.cellIjk e).1 (g.cellIjk f).1, max (g.cellIjk e).2.1 (g.cellIjk f).2.1,
      max (g.cellIjk e).2.2 (g.cellIjk f).2.2), ?_, ?_⟩
    · rw [mem_cellToNodes g he (by omega) (by omega)]; omega
    · rw [mem_cellToNodes g hf (by omega) (by omega)]; omega

theorem mem_nodeAdjacent (cells : List (List ℕ)) (numNodes : ℕ) (seed : List ℕ)
    (hn : ∀ c ∈ cells, ∀ n ∈ c, n < numNodes) (f : ℕ) :
    f ∈ nodeAdjacentCells cells numNodes seed ↔ f < cells.length ∧
      ∃ e ∈ seed, ∃ n, n ∈ cells.getD e [] ∧ n ∈ cells.getD f [] := by
  unfold nodeAdjacentCells
  simp only [List.mem_filter, List.mem_range, List.any_eq_true]
  constructor
  · rintro ⟨hf, n, hnf, hs⟩
    refine ⟨hf, ?_⟩
    by_cases hlt : n < numNodes
    · rw [List.getD_eq_getElem _ _ (by simpa using hlt)] at hs
      simp only [List.getElem_map, List.getElem_range, decide_eq_true_eq, mem_unique, List.mem_flatten,
        List.mem_map] at hs
      obtain ⟨l, ⟨e, he, rfl⟩, hl⟩ := hs
      exact ⟨e, he, n, hl, hnf⟩
    · rw [List.getD_eq_default _ _ (by simpa using hlt)] at hs
      simp at hs
  · rintro ⟨hf, e, he, n, h1, h2⟩
    refine ⟨hf, n, h2, ?_⟩
    have hlt : n < numNodes := by
      rw [List.getD_eq_getElem _ _ hf] at h2
      exact hn _ (List.getElem_mem hf) n h2
    rw [List.getD_eq_getElem _ _ (by simpa using hlt)]
    simp only [List.getElem_map, List.getElem_range, decide_eq_true_eq, mem_unique, List.mem_flatten, List.mem_map]
    exact ⟨_, ⟨e, he, rfl⟩, h1⟩

/-- C31: dilating by one on the grid is the node-adjacency dilation used on unstructured meshes, applied to
the grid's connectivity. -/
theorem C31_equals_node_adjacency (g : Grid) (S : List ℕ) (hS : ∀ e ∈ S, e < g.numCells) :
    nodeAdjacentCells ((List.range g.numCells).map g.cellToNodes) g.numNodes S = g.dilateCells S 1 := by
  have hget : ∀ e < g.numCells, ((List.range g.numCells).map g.cellToNodes).getD e [] = g.cellToNodes e := by
    intro e he
    rw [List.getD_eq_getElem _ _ (by simpa using he)]
    simp
  have hn : ∀ c ∈ (List.range g.numCells).map g.cellToNodes, ∀ n ∈ c, n < g.numNodes := by
    intro c hc n hnc
    rw [List.mem_map] at hc
    obtain ⟨e, he, rfl⟩ := hc
    exact (C30_connectivity g).2.1 e (List.mem_range.1 he) n hnc
  apply sorted_ext
  · unfold nodeAdjacentCells
    exact List.Pairwise.filter _ List.pairwise_lt_range
  · exact (C31_dilation_is_box_neighbourhood g S 1 hS).1
  · intro f
    rw [mem_nodeAdjacent _ _ _ hn, (C31_dilation_is_box_neighbourhood g S 1 hS).2 f]
    have : (1 : ℤ).toNat = 1 := rfl
    rw [this]
    simp only [List.length_map, List.length_range]
    constructor
    · rintro ⟨hf, e, he, n, h1, h2⟩
      rw [hget e (hS e he)] at h1
      rw [hget f hf] at h2
      exact ⟨e, he, (share_node_iff g (hS e he) hf).1 ⟨n, h1, h2⟩⟩
    · rintro ⟨e, he, hn⟩
      have hf := ((nearCells_iff g 1 (hS e he) f).1 hn).1
      obtain ⟨n, h1, h2⟩ := (share_node_iff g (hS e he) hf).2 hn
      exact ⟨hf, e, he, n, by rw [hget e (hS e he)]; exact h1, by rw [hget f hf]; exact h2⟩

/-- A corner cell of a 3×3×3 grid dilated by one: its 2×2×2 block. -/
example : (⟨3, 3, 3⟩ : Grid).dilateCells [0] 1 = [0, 1, 3, 4, 9, 10, 12, 13] ∧
    ((⟨3, 3, 3⟩ : Grid).dilateCells [0] 2).length = 27 := by decide +kernel

end Verif.Props
