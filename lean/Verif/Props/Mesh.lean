import Verif.Model.Mesh
import Verif.Lemmas.BC
import Verif.Props.Merge
import Mathlib.Algebra.Order.Field.Basic
import Mathlib.Tactic.FieldSimp
import Mathlib.Tactic.Ring
import Mathlib.Tactic.Linarith
import Mathlib.Tactic.NormNum

/-!
# C43 – C46: meshes
-/

namespace Verif.Props
open Verif.Model

/-! ## Specification -/

/-- The point a node number names. -/
def pointOf {P : Type*} (m : FeMesh P) (n : ℤ) : Option P := if 0 ≤ n then m.points[n.toNat]? else none

/-- The coordinates of local node `k` of cell `c`. -/
def vertexAt {P : Type*} (m : FeMesh P) (c k : ℕ) : Option P :=
  (m.cells[c]?).bind fun cell => (cell[k]?).bind fun n => pointOf m n

/-- Every node number used in a cell names a point. -/
def NodesInRange {P : Type*} (m : FeMesh P) : Prop := ∀ cell ∈ m.cells, ∀ n ∈ cell, 0 ≤ n ∧ n < m.points.length

/-- Every point is a vertex of some cell. -/
def EveryNodeUsed {P : Type*} (m : FeMesh P) : Prop := ∀ k < m.points.length, ∃ cell ∈ m.cells, (k : ℤ) ∈ cell

/-- The nodes of the quadrilateral on the unit square: corners counter-clockwise, then the midpoints of the edges
following each corner, then the centre. -/
def quadNodes (K : Type*) [Field K] : String → Option (List (K × K))
  | "QUAD4" => some [(0, 0), (1, 0), (1, 1), (0, 1)]
  | "QUAD8" => some [(0, 0), (1, 0), (1, 1), (0, 1), (1 / 2, 0), (1, 1 / 2), (1 / 2, 1), (0, 1 / 2)]
  | "QUAD9" => some [(0, 0), (1, 0), (1, 1), (0, 1), (1 / 2, 0), (1, 1 / 2), (1 / 2, 1), (0, 1 / 2), (1 / 2, 1 / 2)]
  | _ => none

/-! ## Lists -/

theorem flatten_getElem? {β : Type*} (L : List (List β)) (w : ℕ) (h : ∀ r ∈ L, r.length = w) (i j : ℕ) (hj : j < w) :
    L.flatten[i * w + j]? = (L[i]?).bind fun r => r[j]? := by
  induction L generalizing i with
  | nil => simp
  | cons r L ih =>
    have hr : r.length = w := h r (by simp)
    rw [List.flatten_cons]
    cases i with
    | zero =>
      rw [List.getElem?_append_left (by omega)]
      simp
    | succ i =>
      rw [List.getElem?_append_right (by rw [hr, Nat.succ_mul]; omega)]
      have : (i + 1) * w + j - r.length = i * w + j := by rw [hr, Nat.succ_mul]; omega
      rw [this, ih (fun r hr => h r (by simp [hr]))]
      simp

theorem flatten_length_uniform {β : Type*} (L : List (List β)) (w : ℕ) (h : ∀ r ∈ L, r.length = w) :
    L.flatten.length = L.length * w := by
  induction L with
  | nil => simp
  | cons r L ih =>
    rw [List.flatten_cons, List.length_append, ih (fun r hr => h r (by simp [hr])), h r (by simp), List.length_cons,
      Nat.succ_mul]
    omega

section rect
variable {K : Type*} [Field K]

theorem gridPoints_length (xs ys : List K) : (gridPoints xs ys).length = xs.length * ys.length := by
  unfold gridPoints
  rw [flatten_length_uniform _ ys.length (by simp)]
  simp

theorem gridPoints_getElem? (xs ys : List K) (a b : ℕ) (ha : a < xs.length) (hb : b < ys.length) :
    (gridPoints xs ys)[a * ys.length + b]? = some (xs[a], ys[b]) := by
  unfold gridPoints
  rw [flatten_getElem? _ ys.length (by simp) a b hb]
  simp [ha, hb]

theorem linspace_getElem (a l : K) (n i : ℕ) (hi : i < (linspace a (a + l) (n + 1)).length) :
    (linspace a (a + l) (n + 1))[i] = a + (i : K) * (l / (n : K)) := by
  simp [linspace]

theorem linspace_length (a b : K) (n : ℕ) : (linspace a b n).length = n := by simp [linspace]

theorem rectCells_getElem? (nx ny s nyf : ℕ) (offs : List (ℕ × ℕ)) (i j : ℕ) (hi : i < nx) (hj : j < ny) :
    (rectCells nx ny s nyf offs)[i * ny + j]?
      = some (offs.map fun o => (s * i + o.1) * nyf + (s * j + o.2)) := by
  unfold rectCells
  rw [List.flatMap_def, flatten_getElem? _ ny (by simp) i j hj]
  simp [hi, hj]

theorem rectCells_length (nx ny s nyf : ℕ) (offs : List (ℕ × ℕ)) : (rectCells nx ny s nyf offs).length = nx * ny := by
  unfold rectCells
  rw [List.flatMap_def, flatten_length_uniform _ ny (by simp)]
  simp

theorem mem_rectCells {nx ny s nyf : ℕ} {offs : List (ℕ × ℕ)} {c : List ℕ} (h : c ∈ rectCells nx ny s nyf offs) :
    ∃ i < nx, ∃ j < ny, c = offs.map fun o => (s * i + o.1) * nyf + (s * j + o.2) := by
  unfold rectCells at h
  simp only [List.mem_flatMap, List.mem_map, List.mem_range] at h
  obtain ⟨i, hi, j, hj, rfl⟩ := h
  exact ⟨i, hi, j, hj, rfl⟩

theorem rectCells_mem {nx ny s nyf : ℕ} (offs : List (ℕ × ℕ)) {i j : ℕ} (hi : i < nx) (hj : j < ny) :
    (offs.map fun o => (s * i + o.1) * nyf + (s * j + o.2)) ∈ rectCells nx ny s nyf offs := by
  unfold rectCells
  simp only [List.mem_flatMap, List.mem_map, List.mem_range]
  exact ⟨i, hi, j, hj, rfl⟩

/-- Renumbering: position of an old number in the list of kept numbers. -/
theorem compactMap_spec (n : ℕ) (ids : List ℕ) (hn : ids.Nodup) (hlt : ∀ i ∈ ids, i < n) (d : ℤ) {a : ℕ} (ha : a ∈ ids) :
    ∃ k < ids.length, ids[k]? = some a ∧ (compactMap n ids).getD a d = (k : ℤ) := by
  obtain ⟨k, hk, rfl⟩ := List.getElem_of_mem ha
  refine ⟨k, hk, by simp [hk], ?_⟩
  unfold compactMap
  have h := scatterSet_getD_nodup d (List.replicate n (-1 : ℤ)) ids ((List.range ids.length).map Int.ofNat) hn k hk
    (by simpa using hk) (by
      rw [List.length_replicate, List.getD_eq_getElem?_getD, List.getElem?_eq_getElem hk]
      exact hlt _ (List.getElem_mem hk))
  rw [List.getD_eq_getElem?_getD (l := ids), List.getElem?_eq_getElem hk] at h
  rw [show (some ids[k]).getD 0 = ids[k] from rfl] at h
  rw [h]
  simp [List.getD_eq_getElem?_getD, hk]

end rect

/-- The renumbered mesh of a list of kept node numbers. -/
theorem compact_ok {P : Type*} (points : List P) (cells : List (List ℕ)) (ids : List ℕ) (ty : String)
    (hn : ids.Nodup) (hlt : ∀ i ∈ ids, i < points.length) (hmem : ∀ i, i ∈ ids ↔ i ∈ cells.flatten) (d : P) :
    let m : FeMesh P :=
      ⟨gather d points ids, cells.map fun c => c.map fun n => (compactMap points.length ids).getD n 0, ty⟩
    NodesInRange m ∧ EveryNodeUsed m ∧ m.cells.length = cells.length ∧
      (∀ c k, vertexAt m c k = (cells[c]?).bind fun cell => (cell[k]?).bind fun n => points[n]?) := by
  intro m
  have hspec := fun a (ha : a ∈ ids) => compactMap_spec points.length ids hn hlt 0 ha
  have hlen : m.points.length = ids.length := by simp [m, gather]
  refine ⟨?_, ?_, by simp [m], ?_⟩
  · intro cell hc n hnm
    simp only [m, List.mem_map] at hc
    obtain ⟨c, hc, rfl⟩ := hc
    obtain ⟨a, ha, rfl⟩ := List.mem_map.1 hnm
    obtain ⟨k, hk, -, hk2⟩ := hspec a ((hmem a).2 (List.mem_flatten.2 ⟨c, hc, ha⟩))
    rw [hk2, hlen]
    omega
  · intro k hk
    rw [hlen] at hk
    obtain ⟨c, hc, hac⟩ := List.mem_flatten.1 ((hmem _).1 (List.getElem_mem hk))
    refine ⟨_, List.mem_map.2 ⟨c, hc, rfl⟩, List.mem_map.2 ⟨ids[k], hac, ?_⟩⟩
    obtain ⟨k', hk', he, hk2⟩ := hspec ids[k] (List.getElem_mem hk)
    rw [hk2]
    rw [List.getElem?_eq_getElem hk'] at he
    have := (hn.getElem_inj_iff (hi := hk') (hj := hk)).1 (by simpa using he)
    rw [this]
  · intro c k
    unfold vertexAt
    simp only [m, List.getElem?_map]
    cases hc : cells[c]? with
    | none => rfl
    | some cell =>
      simp only [Option.map_some, Option.bind_some, List.getElem?_map]
      cases hk : cell[k]? with
      | none => rfl
      | some a =>
        simp only [Option.map_some, Option.bind_some]
        have ha : a ∈ ids := (hmem a).2 (List.mem_flatten.2 ⟨cell, List.mem_of_getElem? hc, List.mem_of_getElem? hk⟩)
        obtain ⟨k', hk', he, hk2⟩ := hspec a ha
        rw [hk2]
        unfold pointOf
        rw [if_pos (by omega)]
        simp only [Int.toNat_natCast]
        simp [gather, List.getElem?_map, he, List.getD_eq_getElem?_getD, List.getElem?_eq_getElem (hlt a ha)]

/-! ## C43: rectangles -/

section rect2
variable {K : Type*} [Field K]

/-- A node of the grid with `s` intervals per cell sits at its fraction of the cell. -/
theorem grid_node [CharZero K] (x0 l : K) (s n i o : ℕ) (hs : 0 < s) (hn : 0 < n) :
    x0 + ((s * i + o : ℕ) : K) * (l / ((s * n : ℕ) : K)) = x0 + ((i : K) + (o : K) / (s : K)) * (l / (n : K)) := by
  have h1 : (s : K) ≠ 0 := by exact_mod_cast hs.ne'
  have h2 : (n : K) ≠ 0 := by exact_mod_cast hn.ne'
  push_cast
  field_simp

/-- Coordinates of a node named in a cell of the grid. -/
theorem rect_vertex [CharZero K] (nx ny s : ℕ) (hx : 0 < nx) (hy : 0 < ny) (hs : 0 < s) (lx ly x0 y0 : K)
    (offs : List (ℕ × ℕ)) (ho : ∀ o ∈ offs, o.1 ≤ s ∧ o.2 ≤ s) (i j k : ℕ) (hi : i < nx) (hj : j < ny) :
    ((rectCells nx ny s (s * ny + 1) offs)[i * ny + j]?).bind (fun cell => (cell[k]?).bind fun n =>
      (gridPoints (linspace x0 (x0 + lx) (s * nx + 1)) (linspace y0 (y0 + ly) (s * ny + 1)))[n]?)
      = (offs[k]?).map fun o => (x0 + ((i : K) + (o.1 : K) / (s : K)) * (lx / (nx : K)),
          y0 + ((j : K) + (o.2 : K) / (s : K)) * (ly / (ny : K))) := by
  rw [rectCells_getElem? _ _ _ _ _ _ _ hi hj]
  simp only [Option.bind_some, List.getElem?_map]
  cases hk : offs[k]? with
  | none => rfl
  | some o =>
    obtain ⟨h1, h2⟩ := ho o (List.mem_of_getElem? hk)
    have hi' : s * i + s ≤ s * nx := by rw [← Nat.mul_succ]; exact Nat.mul_le_mul_left s hi
    have hj' : s * j + s ≤ s * ny := by rw [← Nat.mul_succ]; exact Nat.mul_le_mul_left s hj
    have hl2 : (linspace y0 (y0 + ly) (s * ny + 1)).length = s * ny + 1 := linspace_length _ _ _
    have := gridPoints_getElem? (linspace x0 (x0 + lx) (s * nx + 1)) (linspace y0 (y0 + ly) (s * ny + 1))
      (s * i + o.1) (s * j + o.2) (by rw [linspace_length]; omega) (by rw [linspace_length]; omega)
    rw [linspace_getElem, linspace_getElem, hl2] at this
    simp only [Option.map_some, Option.bind_some]
    rw [this, grid_node _ _ _ _ _ _ hs hx, grid_node _ _ _ _ _ _ hs hy]

theorem rect_node_lt {nx ny s : ℕ} {offs : List (ℕ × ℕ)} (ho : ∀ o ∈ offs, o.1 ≤ s ∧ o.2 ≤ s) {c : List ℕ}
    (hc : c ∈ rectCells nx ny s (s * ny + 1) offs) {n : ℕ} (hn : n ∈ c) : n < (s * nx + 1) * (s * ny + 1) := by
  obtain ⟨i, hi, j, hj, rfl⟩ := mem_rectCells hc
  obtain ⟨o, hoo, rfl⟩ := List.mem_map.1 hn
  obtain ⟨h1, h2⟩ := ho o hoo
  have hi' : s * i + s ≤ s * nx := by rw [← Nat.mul_succ]; exact Nat.mul_le_mul_left s hi
  have hj' : s * j + s ≤ s * ny := by rw [← Nat.mul_succ]; exact Nat.mul_le_mul_left s hj
  calc (s * i + o.1) * (s * ny + 1) + (s * j + o.2) < (s * i + o.1) * (s * ny + 1) + (s * ny + 1) := by omega
    _ = (s * i + o.1 + 1) * (s * ny + 1) := by ring
    _ ≤ (s * nx + 1) * (s * ny + 1) := Nat.mul_le_mul_right _ (by omega)

/-- What the three meshes share. -/
theorem rect_compact [CharZero K] (nx ny : ℕ) (hx : 0 < nx) (hy : 0 < ny) (lx ly x0 y0 : K) (offs : List (ℕ × ℕ))
    (ho : ∀ o ∈ offs, o.1 ≤ 2 ∧ o.2 ≤ 2) (ty : String) :
    let m := compactMesh (gridPoints (linspace x0 (x0 + lx) (2 * nx + 1)) (linspace y0 (y0 + ly) (2 * ny + 1)))
      (rectCells nx ny 2 (2 * ny + 1) offs) ty
    NodesInRange m ∧ EveryNodeUsed m ∧ m.cells.length = nx * ny ∧
      ∀ i < nx, ∀ j < ny, ∀ k, vertexAt m (i * ny + j) k
        = (offs[k]?).map fun o => (x0 + ((i : K) + (o.1 : K) / 2) * (lx / (nx : K)),
          y0 + ((j : K) + (o.2 : K) / 2) * (ly / (ny : K))) := by
  intro m
  set pts := gridPoints (linspace x0 (x0 + lx) (2 * nx + 1)) (linspace y0 (y0 + ly) (2 * ny + 1)) with hpts
  set cells := rectCells nx ny 2 (2 * ny + 1) offs with hcells
  have hl : pts.length = (2 * nx + 1) * (2 * ny + 1) := by
    rw [hpts, gridPoints_length, linspace_length, linspace_length]
  obtain ⟨h1, h2, h3, h4⟩ := compact_ok pts cells ((List.range pts.length).filter fun n => cells.flatten.contains n) ty
    (List.nodup_range.filter _) (fun i hi => List.mem_range.1 (List.mem_filter.1 hi).1) (by
      intro i
      rw [List.mem_filter, List.mem_range]
      simp only [List.contains_iff_mem]
      refine ⟨fun h => h.2, fun h => ⟨?_, h⟩⟩
      obtain ⟨c, hc, hi⟩ := List.mem_flatten.1 h
      rw [hl]
      exact rect_node_lt ho hc hi) (0, 0)
  refine ⟨h1, h2, by rw [← rectCells_length nx ny 2 (2 * ny + 1) offs]; exact h3, ?_⟩
  intro i hi j hj k
  have h5 := h4 (i * ny + j) k
  rw [hpts, hcells, rect_vertex nx ny 2 hx hy (by omega) lx ly x0 y0 offs ho i j k hi hj] at h5
  exact_mod_cast h5

/-- **C43.** For every accepted element type and every `Nx, Ny ≥ 1`: `rectangle_mesh` returns `Nx * Ny` cells; all node
numbers name points; every point is a vertex of some cell; and local node `k` of cell `(i, j)` is the image of the
reference node `k` (corners counter-clockwise, then edge midpoints, then centre) in the `i`-th column and `j`-th row of
the subdivided rectangle. -/
theorem C43_rectangle_mesh [CharZero K] (nx ny : ℕ) (hx : 0 < nx) (hy : 0 < ny) (lx ly x0 y0 : K) (ty : String)
    (m : FeMesh (K × K)) (h : rectangleMesh nx ny lx ly x0 y0 ty = .ok m) :
    m.eleType = ty ∧ m.cells.length = nx * ny ∧ NodesInRange m ∧ EveryNodeUsed m ∧
      ∃ ref, quadNodes K ty = some ref ∧ ∀ i < nx, ∀ j < ny, ∀ k, vertexAt m (i * ny + j) k
        = (ref[k]?).map fun o => (x0 + ((i : K) + o.1) * (lx / (nx : K)), y0 + ((j : K) + o.2) * (ly / (ny : K))) := by
  have key : ∀ offs : List (ℕ × ℕ), ∀ (s : K) (k i j : ℕ), ((offs.map fun o : ℕ × ℕ => ((o.1 : K) / s, (o.2 : K) / s))[k]?).map
      (fun o : K × K => (x0 + ((i : K) + o.1) * (lx / (nx : K)), y0 + ((j : K) + o.2) * (ly / (ny : K))))
      = (offs[k]?).map fun o : ℕ × ℕ => (x0 + ((i : K) + (o.1 : K) / s) * (lx / (nx : K)),
          y0 + ((j : K) + (o.2 : K) / s) * (ly / (ny : K))) := by
    intro offs s k i j
    rw [List.getElem?_map, Option.map_map]
    rfl
  unfold rectangleMesh at h
  by_cases h4 : ty = "QUAD4"
  · rw [if_pos h4] at h
    injection h with h
    subst h4
    set offs : List (ℕ × ℕ) := [(0, 0), (1, 0), (1, 1), (0, 1)] with hoffs
    have ho : ∀ o ∈ offs, o.1 ≤ 1 ∧ o.2 ≤ 1 := by simp [hoffs]
    have hl : m.points.length = (nx + 1) * (ny + 1) := by
      rw [← h]; simp [gridPoints_length, linspace_length]
    refine ⟨by rw [← h], by rw [← h]; simp [rectCells_length], ?_, ?_, _, rfl, ?_⟩
    · intro cell hc n hn
      rw [← h] at hc
      simp only [List.mem_map] at hc
      obtain ⟨c, hc, rfl⟩ := hc
      obtain ⟨a, ha, rfl⟩ := List.mem_map.1 hn
      have := rect_node_lt (s := 1) (nx := nx) (ny := ny) ho (by simpa using hc) ha
      simp only [one_mul] at this
      rw [hl]
      simp only [Int.ofNat_eq_natCast]
      omega
    · intro k hk
      rw [hl] at hk
      have hq : k / (ny + 1) ≤ nx := Nat.lt_succ_iff.1 ((Nat.div_lt_iff_lt_mul (by omega)).2 hk)
      have hr : k % (ny + 1) ≤ ny := Nat.lt_succ_iff.1 (Nat.mod_lt _ (by omega))
      have hk2 := Nat.div_add_mod' k (ny + 1)
      set q := k / (ny + 1)
      set r := k % (ny + 1)
      have hmem : ∃ i < nx, ∃ j < ny, ∃ o ∈ offs, i + o.1 = q ∧ j + o.2 = r := by
        by_cases hq' : q < nx
        · by_cases hr' : r < ny
          · exact ⟨q, hq', r, hr', (0, 0), by simp [hoffs], rfl, rfl⟩
          · exact ⟨q, hq', r - 1, by omega, (0, 1), by simp [hoffs], rfl, by simp; omega⟩
        · by_cases hr' : r < ny
          · exact ⟨q - 1, by omega, r, hr', (1, 0), by simp [hoffs], by simp; omega, rfl⟩
          · exact ⟨q - 1, by omega, r - 1, by omega, (1, 1), by simp [hoffs], by simp; omega, by simp; omega⟩
      obtain ⟨i, hi, j, hj, o, hoo, e1, e2⟩ := hmem
      rw [← h]
      refine ⟨_, List.mem_map.2 ⟨_, rectCells_mem offs hi hj, rfl⟩, ?_⟩
      simp only [List.map_map, List.mem_map, Function.comp]
      refine ⟨o, hoo, ?_⟩
      rw [one_mul, one_mul, e1, e2, hk2]
      rfl
    · intro i hi j hj k
      have hv := rect_vertex nx ny 1 hx hy (by omega) lx ly x0 y0 offs ho i j k hi hj
      simp only [one_mul, Nat.cast_one] at hv
      have hk := key offs 1 k i j
      have : offs.map (fun o : ℕ × ℕ => ((o.1 : K) / 1, (o.2 : K) / 1)) = [(0, 0), (1, 0), (1, 1), (0, 1)] := by
        simp [hoffs]
      rw [this] at hk
      rw [hk, ← hv, ← h]
      unfold vertexAt pointOf
      simp only [List.getElem?_map]
      cases (rectCells nx ny 1 (ny + 1) offs)[i * ny + j]? with
      | none => rfl
      | some cell =>
        simp only [Option.map_some, Option.bind_some, List.getElem?_map]
        cases cell[k]? with
        | none => rfl
        | some a => simp
  · rw [if_neg h4] at h
    have fin : ∀ offs : List (ℕ × ℕ), (∀ o ∈ offs, o.1 ≤ 2 ∧ o.2 ≤ 2) → ∀ ref : List (K × K),
        offs.map (fun o : ℕ × ℕ => ((o.1 : K) / 2, (o.2 : K) / 2)) = ref → quadNodes K ty = some ref →
        compactMesh (gridPoints (linspace x0 (x0 + lx) (2 * nx + 1)) (linspace y0 (y0 + ly) (2 * ny + 1)))
          (rectCells nx ny 2 (2 * ny + 1) offs) ty = m →
        m.eleType = ty ∧ m.cells.length = nx * ny ∧ NodesInRange m ∧ EveryNodeUsed m ∧
          ∃ ref, quadNodes K ty = some ref ∧ ∀ i < nx, ∀ j < ny, ∀ k, vertexAt m (i * ny + j) k
            = (ref[k]?).map fun o => (x0 + ((i : K) + o.1) * (lx / (nx : K)), y0 + ((j : K) + o.2) * (ly / (ny : K))) := by
      intro offs ho ref href hq hm
      obtain ⟨h1, h2, h3, h5⟩ := rect_compact nx ny hx hy lx ly x0 y0 offs ho ty
      rw [hm] at h1 h2 h3 h5
      refine ⟨by rw [← hm]; rfl, h3, h1, h2, ref, hq, ?_⟩
      intro i hi j hj k
      rw [h5 i hi j hj k, ← href, key]
    have two : (2 : K) / 2 = 1 := by norm_num
    by_cases h8 : ty = "QUAD8"
    · rw [if_pos h8] at h
      injection h with h
      subst h8
      exact fin _ (by simp) _ (by simp [two]) rfl h
    · rw [if_neg h8] at h
      by_cases h9 : ty = "QUAD9"
      · rw [if_pos h9] at h
        injection h with h
        subst h9
        exact fin _ (by simp) _ (by simp [two]) rfl h
      · rw [if_neg h9] at h
        cases h

/-- **C43.** Exactly the three quadrilateral types are accepted; anything else is a `ValueError`. -/
theorem C43_accepted_types (nx ny : ℕ) (lx ly x0 y0 : K) (ty : String) :
    (∃ m, rectangleMesh nx ny lx ly x0 y0 ty = .ok m) ↔ ty ∈ ["QUAD4", "QUAD8", "QUAD9"] := by
  unfold rectangleMesh
  split_ifs with h1 h2 h3 <;> simp_all

theorem linspace_nodup [CharZero K] (a l : K) (n : ℕ) (hl : l ≠ 0) (hn : 0 < n) : (linspace a (a + l) (n + 1)).Nodup := by
  have h2 : (n : K) ≠ 0 := by exact_mod_cast hn.ne'
  unfold linspace
  refine List.nodup_range.map ?_
  intro i j h
  simp only [Nat.add_sub_cancel, add_sub_cancel_left, add_right_inj, mul_eq_mul_right_iff] at h
  rcases h with h | h
  · exact_mod_cast h
  · exact absurd h (div_ne_zero hl h2)

theorem gridPoints_nodup {xs ys : List K} (hx : xs.Nodup) (hy : ys.Nodup) : (gridPoints xs ys).Nodup := by
  have : gridPoints xs ys = xs ×ˢ ys := by
    unfold gridPoints
    rw [← List.flatMap_def]
    rfl
  rw [this]
  exact hx.product hy

/-- **C43.** On a rectangle of non-zero width and height different nodes have different coordinates (so cells that touch
share the node there), and the nodes of a cell are different. -/
theorem C43_nodes_distinct [CharZero K] (nx ny : ℕ) (hx : 0 < nx) (hy : 0 < ny) (lx ly x0 y0 : K) (hlx : lx ≠ 0)
    (hly : ly ≠ 0) (ty : String) (m : FeMesh (K × K)) (h : rectangleMesh nx ny lx ly x0 y0 ty = .ok m) :
    m.points.Nodup ∧ ∀ cell ∈ m.cells, cell.Nodup := by
  constructor
  · have hc : ∀ pts : List (K × K), pts.Nodup → ∀ cells ty', (compactMesh pts cells ty').points.Nodup := by
      intro pts hp cells ty'
      have : (compactMesh pts cells ty').points
          = gather (0, 0) pts ((List.range pts.length).filter fun n => cells.flatten.contains n) := rfl
      rw [this]
      unfold gather
      refine List.Nodup.map_on ?_ (List.nodup_range.filter _)
      intro i hi j hj he
      have hi' := List.mem_range.1 (List.mem_filter.1 hi).1
      have hj' := List.mem_range.1 (List.mem_filter.1 hj).1
      simp only [List.getD_eq_getElem?_getD, List.getElem?_eq_getElem hi', List.getElem?_eq_getElem hj',
        Option.getD_some] at he
      exact (hp.getElem_inj_iff).1 he
    unfold rectangleMesh at h
    split_ifs at h with h1 h2 h3
    · injection h with h
      rw [← h]
      exact gridPoints_nodup (linspace_nodup _ _ _ hlx hx) (linspace_nodup _ _ _ hly hy)
    · injection h with h
      rw [← h]
      exact hc _ (gridPoints_nodup (linspace_nodup _ _ _ hlx (by omega)) (linspace_nodup _ _ _ hly (by omega))) _ _
    · injection h with h
      rw [← h]
      exact hc _ (gridPoints_nodup (linspace_nodup _ _ _ hlx (by omega)) (linspace_nodup _ _ _ hly (by omega))) _ _
  · obtain ⟨-, hlen, hr, -, ref, href, hv⟩ := C43_rectangle_mesh nx ny hx hy lx ly x0 y0 ty m h
    have hrn : ref.Nodup := by
      have half : (1 / 2 : K) ≠ 0 := by norm_num
      have half' : (1 / 2 : K) ≠ 1 := by norm_num
      unfold quadNodes at href
      split at href <;> simp only [Option.some.injEq, reduceCtorEq] at href <;> subst href <;> simp [half.symm, half'.symm]
    intro cell hcell
    obtain ⟨c, hc, rfl⟩ := List.getElem_of_mem hcell
    have hc2 := hc
    rw [hlen] at hc2
    have hi : c / ny < nx := (Nat.div_lt_iff_lt_mul hy).2 hc2
    have hj : c % ny < ny := Nat.mod_lt _ hy
    have hcc : c / ny * ny + c % ny = c := Nat.div_add_mod' c ny
    have h1 : (nx : K) ≠ 0 := by exact_mod_cast hx.ne'
    have h2 : (ny : K) ≠ 0 := by exact_mod_cast hy.ne'
    rw [List.nodup_iff_injective_get]
    intro a b hab
    have hvert : ∀ k (hk : k < m.cells[c].length), ∃ o, ref[k]? = some o ∧ pointOf m m.cells[c][k]
        = some (x0 + (((c / ny : ℕ) : K) + o.1) * (lx / (nx : K)), y0 + (((c % ny : ℕ) : K) + o.2) * (ly / (ny : K))) := by
      intro k hk
      have := hv _ hi _ hj k
      rw [hcc] at this
      unfold vertexAt at this
      rw [List.getElem?_eq_getElem hc, Option.bind_some, List.getElem?_eq_getElem hk, Option.bind_some] at this
      obtain ⟨g1, g2⟩ := hr _ hcell _ (List.getElem_mem hk)
      cases ho : ref[k]? with
      | none =>
        rw [ho] at this
        unfold pointOf at this
        rw [if_pos g1, List.getElem?_eq_getElem (by omega)] at this
        cases this
      | some o =>
        rw [ho] at this
        exact ⟨o, rfl, this⟩
    obtain ⟨o1, e1, p1⟩ := hvert a a.2
    obtain ⟨o2, e2, p2⟩ := hvert b b.2
    have hab' : m.cells[c][(a : ℕ)] = m.cells[c][(b : ℕ)] := hab
    rw [hab', p2] at p1
    simp only [Option.some.injEq, Prod.mk.injEq, add_right_inj, mul_eq_mul_right_iff, div_ne_zero hlx h1,
      div_ne_zero hly h2, or_false] at p1
    have ho : o2 = o1 := Prod.ext p1.1 p1.2
    rw [ho] at e2
    have hka : (a : ℕ) < ref.length := (List.getElem?_eq_some_iff.1 e1).1
    exact Fin.ext ((List.getElem?_inj hka hrn).1 (e1.trans e2.symm))

/-- **C43.** The corners run counter-clockwise: the signed area of the polygon through the first four vertices of every
cell is that of one subdivision, so it is positive for positive width and height. -/
theorem C43_counter_clockwise [CharZero K] (nx ny : ℕ) (hx : 0 < nx) (hy : 0 < ny) (lx ly x0 y0 : K) (ty : String)
    (m : FeMesh (K × K)) (h : rectangleMesh nx ny lx ly x0 y0 ty = .ok m) (c : ℕ) (hc : c < m.cells.length) :
    ∃ a b d e : K × K, vertexAt m c 0 = some a ∧ vertexAt m c 1 = some b ∧ vertexAt m c 2 = some d ∧
      vertexAt m c 3 = some e ∧
      (a.1 * b.2 - b.1 * a.2) + (b.1 * d.2 - d.1 * b.2) + (d.1 * e.2 - e.1 * d.2) + (e.1 * a.2 - a.1 * e.2)
        = 2 * ((lx / nx) * (ly / ny)) := by
  obtain ⟨-, hlen, hr, -, ref, href, hv⟩ := C43_rectangle_mesh nx ny hx hy lx ly x0 y0 ty m h
  rw [hlen] at hc
  have hi : c / ny < nx := (Nat.div_lt_iff_lt_mul hy).2 hc
  have hj : c % ny < ny := Nat.mod_lt _ hy
  have hcc : c / ny * ny + c % ny = c := Nat.div_add_mod' c ny
  have hv' := hv _ hi _ hj
  rw [hcc] at hv'
  have hpre : ref[0]? = some (0, 0) ∧ ref[1]? = some (1, 0) ∧ ref[2]? = some (1, 1) ∧ ref[3]? = some (0, 1) := by
    unfold quadNodes at href
    split at href <;> simp only [Option.some.injEq, reduceCtorEq] at href <;> subst href <;> simp
  obtain ⟨r0, r1, r2, r3⟩ := hpre
  refine ⟨_, _, _, _, by rw [hv', r0]; rfl, by rw [hv', r1]; rfl, by rw [hv', r2]; rfl, by rw [hv', r3]; rfl, ?_⟩
  ring

example : ((rectangleMesh 2 1 (4 : ℚ) 2 0 0 "QUAD4").toOption.map fun m => (m.points, m.cells))
    = some ([(0, 0), (0, 2), (2, 0), (2, 2), (4, 0), (4, 2)], [[0, 2, 3, 1], [2, 4, 5, 3]]) := by
  decide +kernel

example : ((rectangleMesh 1 1 (2 : ℚ) 2 0 0 "QUAD8").toOption.map fun m => (m.points, m.cells))
    = some ([(0, 0), (0, 1), (0, 2), (1, 0), (1, 2), (2, 0), (2, 1), (2, 2)], [[0, 5, 7, 2, 3, 6, 4, 1]]) := by
  decide +kernel

end rect2

/-! ## C44: reading gmsh models -/

/-- The coordinates the gmsh model gives to a node tag. -/
def coordOfTag {P : Type*} (g : GmshModel P) (t : ℕ) : Option P :=
  ((g.tags.zip g.coords).find? fun p => p.1 == t).map (·.2)

/-- The node tags of the elements of a type: the first block of that type. -/
def elementTags {P : Type*} (g : GmshModel P) (etype : ℕ) : Option (List ℕ) :=
  (g.blocks.find? fun b => b.1 == etype).map (·.2)

theorem findBlock_ok {P : Type*} (g : GmshModel P) (etype npe : ℕ) (hn : 0 < npe) (nodes : List ℕ)
    (hb : elementTags g etype = some nodes) (hd : npe ∣ nodes.length) :
    ∃ cells, findBlock g etype npe = .ok cells ∧ cells.length = nodes.length / npe ∧
      (∀ c k, k < npe → (cells[c]?).bind (fun cell => cell[k]?) = nodes[c * npe + k]?) ∧
      (∀ t, t ∈ cells.flatten ↔ t ∈ nodes) := by
  unfold elementTags at hb
  unfold findBlock
  cases hf : g.blocks.find? (fun b => b.1 == etype) with
  | none => rw [hf] at hb; cases hb
  | some b =>
    rw [hf] at hb
    simp only [Option.map_some, Option.some.injEq] at hb
    simp only [hb]
    rw [if_pos hd]
    have hidx : ∀ c k, k < npe →
        (((List.range (nodes.length / npe)).map fun r => (nodes.drop (r * npe)).take npe)[c]?).bind (fun cell => cell[k]?)
          = nodes[c * npe + k]? := by
      intro c k hk
      by_cases hc : c < nodes.length / npe
      · simp [hc, hk, List.getElem?_take, List.getElem?_drop]
      · rw [List.getElem?_eq_none (by simpa using hc)]
        have : nodes.length ≤ c * npe := by
          rw [← Nat.div_mul_cancel hd]
          exact Nat.mul_le_mul_right _ (by omega)
        rw [List.getElem?_eq_none (by omega)]
        rfl
    refine ⟨_, rfl, by simp, hidx, ?_⟩
    intro t
    constructor
    · intro ht
      simp only [List.mem_flatten, List.mem_map] at ht
      obtain ⟨l, ⟨r, -, rfl⟩, ht⟩ := ht
      exact List.mem_of_mem_drop (List.mem_of_mem_take ht)
    · intro ht
      obtain ⟨i, hi, rfl⟩ := List.getElem_of_mem ht
      have h1 := hidx (i / npe) (i % npe) (Nat.mod_lt _ hn)
      rw [Nat.div_add_mod' i npe, List.getElem?_eq_getElem hi] at h1
      obtain ⟨l, hl, hl2⟩ := Option.bind_eq_some_iff.1 h1
      exact List.mem_flatten.2 ⟨l, List.mem_of_getElem? hl, List.mem_of_getElem? hl2⟩

/-- **C44 (partial).** If the model numbers its nodes 1, 2, 3, … in the order in which it lists them, the mesh read from
it has one cell per element, contiguous node numbers that are all used, and every local node has the coordinates of the
element's node tag. Missing: other numberings, for which the claim is false (`C44_unordered_tags_wrong_geometry`). -/
theorem C44_reindexed_partial {P : Type} [Inhabited P] (g : GmshModel P) (etype npe : ℕ) (ty : String) (hn : 0 < npe)
    (hlen : g.tags.length = g.coords.length) (htags : g.tags = List.range' 1 g.tags.length) (nodes : List ℕ)
    (hb : elementTags g etype = some nodes) (hd : npe ∣ nodes.length) (hex : ∀ t ∈ nodes, t ∈ g.tags) :
    ∃ m, readGmsh g etype npe ty = .ok m ∧ m.cells.length = nodes.length / npe ∧ NodesInRange m ∧ EveryNodeUsed m ∧
      ∀ c k, k < npe → vertexAt m c k = (nodes[c * npe + k]?).bind fun t => coordOfTag g t := by
  obtain ⟨cells1, hc1, hcl, hidx, hmem⟩ := findBlock_ok g etype npe hn nodes hb hd
  have hrng : ∀ t, t ∈ g.tags ↔ 1 ≤ t ∧ t ≤ g.coords.length := by
    intro t
    rw [htags, List.mem_range'_1, hlen]
    omega
  have hcoord : ∀ t ∈ g.tags, coordOfTag g t = g.coords[t - 1]? := by
    intro t ht
    obtain ⟨h1, h2⟩ := (hrng t).1 ht
    unfold coordOfTag
    have hget : ∀ i (hi : i < g.tags.length), g.tags[i] = 1 + i := by
      intro i hi
      have : g.tags[i]? = some (1 + i) := by
        rw [htags, List.getElem?_range' (by simpa using hi)]
        simp
      rw [List.getElem?_eq_getElem hi] at this
      simpa using this
    have hz : (g.tags.zip g.coords).find? (fun p => p.1 == t) = some (t, g.coords[t - 1]) := by
      rw [List.find?_eq_some_iff_getElem]
      refine ⟨by simp, t - 1, by simp; omega, ?_, ?_⟩
      · simp only [List.getElem_zip]
        rw [hget (t - 1) (by omega)]
        congr 1
        omega
      · intro j hj
        simp only [List.getElem_zip]
        rw [hget j (by omega)]
        simp
        omega
    rw [hz, List.getElem?_eq_getElem (by omega)]
    rfl
  set cells := cells1.map fun c => c.map fun t => t - 1 with hcells
  have hflat : ∀ i, i ∈ cells.flatten ↔ ∃ t ∈ nodes, t - 1 = i := by
    intro i
    rw [hcells, ← List.map_flatten, List.mem_map]
    simp only [hmem]
  have hlt : ∀ i ∈ sortUnique cells.flatten, i < g.coords.length := by
    intro i hi
    rw [mem_sortUnique, hflat] at hi
    obtain ⟨t, ht, rfl⟩ := hi
    have := (hrng t).1 (hex t ht)
    omega
  obtain ⟨h1, h2, h3, h4⟩ := compact_ok g.coords cells (sortUnique cells.flatten) ty
    ((sortUnique_sorted _).imp fun h => Nat.ne_of_lt h) hlt (mem_sortUnique _) default
  refine ⟨_, ?_, ?_, h1, h2, ?_⟩
  · unfold readGmsh
    rw [hc1]
    simp only [bind, Except.bind]
    rw [if_neg]
    simp only [List.any_eq_true, decide_eq_true_eq, not_exists, not_and, not_le]
    exact hlt
  · rw [h3, hcells, List.length_map, hcl]
  · intro c k hk
    rw [h4, ← hidx c k hk]
    rw [hcells, List.getElem?_map]
    cases hcc : cells1[c]? with
    | none => rfl
    | some cell =>
      simp only [Option.map_some, Option.bind_some, List.getElem?_map]
      cases hkk : cell[k]? with
      | none => rfl
      | some t =>
        simp only [Option.map_some, Option.bind_some]
        exact (hcoord t (hex t ((hmem t).1 (List.mem_flatten.2 ⟨cell, List.mem_of_getElem? hcc,
          List.mem_of_getElem? hkk⟩)))).symm

/-- A model with an unused node: two triangles over five nodes. -/
def exGmsh : GmshModel ℕ := ⟨[1, 2, 3, 4, 5], [10, 20, 30, 40, 50], [(2, [1, 2, 4, 2, 5, 4])]⟩

example : elementTags exGmsh 2 = some [1, 2, 4, 2, 5, 4] ∧ exGmsh.tags = List.range' 1 exGmsh.tags.length := by decide
example : (readGmsh exGmsh 2 3 "TRI3").toOption = some ⟨[10, 20, 40, 50], [[0, 1, 2], [1, 3, 2]], "TRI3"⟩ := by decide +kernel

/-- **C44 is false of the code in general**: a model that lists its nodes in another order (here tag 3 before tag 2) is
read without an error, and the cell gets the coordinates of other nodes. -/
theorem C44_unordered_tags_wrong_geometry :
    ∃ (g : GmshModel ℕ) (m : FeMesh ℕ), g.tags.Nodup ∧ g.tags.length = g.coords.length ∧
      elementTags g 2 = some [1, 2, 3] ∧ readGmsh g 2 3 "TRI3" = .ok m ∧
      vertexAt m 0 1 = some 30 ∧ coordOfTag g 2 = some 20 := by
  refine ⟨⟨[1, 3, 2], [10, 30, 20], [(2, [1, 2, 3])]⟩, ⟨[10, 30, 20], [[0, 1, 2]], "TRI3"⟩, by decide, by decide, by decide,
    by rfl, by decide, by decide⟩

/-- **C44.** `refine_mesh` reads the model back through a table from tags to positions and is right for every numbering
of the nodes. -/
theorem C44_refine_readback {P : Type} (g : GmshModel P) (etype npe : ℕ) (ty : String) (hn : 0 < npe)
    (hlen : g.tags.length = g.coords.length) (hnd : g.tags.Nodup) (hne : g.tags ≠ []) (nodes : List ℕ)
    (hb : elementTags g etype = some nodes) (hd : npe ∣ nodes.length) (hex : ∀ t ∈ nodes, t ∈ g.tags) :
    ∃ m, readGmshRemap g etype npe ty = .ok m ∧ m.cells.length = nodes.length / npe ∧ NodesInRange m ∧
      ∀ c k, k < npe → vertexAt m c k = (nodes[c * npe + k]?).bind fun t => coordOfTag g t := by
  obtain ⟨cells1, hc1, hcl, hidx, hmem⟩ := findBlock_ok g etype npe hn nodes hb hd
  have hmax : ∀ (l : List ℕ) (a : ℕ), a ≤ l.foldl max a ∧ ∀ t ∈ l, t ≤ l.foldl max a := by
    intro l
    induction l with
    | nil => intro a; simp
    | cons x l ih =>
      intro a
      obtain ⟨i1, i2⟩ := ih (max a x)
      rw [List.foldl_cons]
      refine ⟨le_trans (le_max_left _ _) i1, ?_⟩
      intro t ht
      rcases List.mem_cons.1 ht with rfl | ht
      · exact le_trans (le_max_right _ _) i1
      · exact i2 t ht
  have hle : ∀ t ∈ g.tags, t < g.tags.foldl max 0 + 1 := fun t ht => Nat.lt_succ_of_le ((hmax g.tags 0).2 t ht)
  have hspec := fun t (ht : t ∈ g.tags) => compactMap_spec (g.tags.foldl max 0 + 1) g.tags hnd hle 0 ht
  have hcoord : ∀ k (hk : k < g.tags.length), coordOfTag g g.tags[k] = g.coords[k]? := by
    intro k hk
    unfold coordOfTag
    have hz : (g.tags.zip g.coords).find? (fun p => p.1 == g.tags[k]) = some (g.tags[k], g.coords[k]) := by
      rw [List.find?_eq_some_iff_getElem]
      refine ⟨by simp, k, by simp; omega, by simp, ?_⟩
      intro j hj
      simp only [List.getElem_zip]
      have : g.tags[j] ≠ g.tags[k] := fun h => by
        have := (hnd.getElem_inj_iff).1 h
        omega
      simpa using this
    rw [hz, List.getElem?_eq_getElem (by omega)]
    rfl
  refine ⟨⟨g.coords, cells1.map fun c => c.map fun t => (compactMap (g.tags.foldl max 0 + 1) g.tags).getD t 0, ty⟩, ?_,
    by simp [hcl], ?_, ?_⟩
  · unfold readGmshRemap
    rw [if_neg hne, hc1]
    simp only [bind, Except.bind]
    rw [if_neg]
    · rfl
    · simp only [List.any_eq_true, decide_eq_true_eq, not_exists, not_and, not_lt]
      intro t ht
      exact (hmax g.tags 0).2 t (hex t ((hmem t).1 ht))
  · intro cell hc n hnm
    simp only [List.mem_map] at hc
    obtain ⟨c, hc, rfl⟩ := hc
    obtain ⟨t, ht, rfl⟩ := List.mem_map.1 hnm
    obtain ⟨k, hk, -, hk2⟩ := hspec t (hex t ((hmem t).1 (List.mem_flatten.2 ⟨c, hc, ht⟩)))
    rw [hk2]
    simp only
    omega
  · intro c k hk
    rw [← hidx c k hk]
    unfold vertexAt
    simp only [List.getElem?_map]
    cases hcc : cells1[c]? with
    | none => rfl
    | some cell =>
      simp only [Option.map_some, Option.bind_some, List.getElem?_map]
      cases hkk : cell[k]? with
      | none => rfl
      | some t =>
        simp only [Option.map_some, Option.bind_some]
        obtain ⟨k', hk', he, hk2⟩ := hspec t (hex t ((hmem t).1 (List.mem_flatten.2 ⟨cell, List.mem_of_getElem? hcc,
          List.mem_of_getElem? hkk⟩)))
        rw [List.getElem?_eq_getElem hk'] at he
        injection he with he
        rw [hk2, ← he, hcoord k' hk']
        simp [pointOf]

example : (readGmshRemap (⟨[7, 3, 2], [70, 30, 20], [(2, [2, 3, 7])]⟩ : GmshModel ℕ) 2 3 "TRI3").toOption
    = some ⟨[70, 30, 20], [[2, 1, 0]], "TRI3"⟩ := by decide +kernel

/-! ## C45: `from_gmsh` -/

theorem dictSet_find {β : Type*} (d : List (String × β)) (k : String) (v : β) (t : String) :
    (dictSet d k v).find? (fun p => p.1 == t) = if k = t then some (t, v) else d.find? fun p => p.1 == t := by
  unfold dictSet
  split
  · rename_i h
    induction d with
    | nil => simp at h
    | cons p d ih =>
      rw [List.map_cons]
      by_cases hp : p.1 = k
      · by_cases hkt : k = t
        · subst hkt
          simp [hp]
        · have hpt : p.1 ≠ t := fun e => hkt (hp ▸ e)
          rw [if_neg hkt, List.find?_cons_of_neg (by simp [hp, hkt]), List.find?_cons_of_neg (by simpa using hpt)]
          clear ih h
          induction d with
          | nil => rfl
          | cons q d ih =>
            rw [List.map_cons]
            by_cases hq : q.1 = k
            · rw [List.find?_cons_of_neg (by simp [hq, hkt]), List.find?_cons_of_neg (by simpa [hq] using hkt), ih]
            · by_cases hqt : q.1 = t
              · rw [List.find?_cons_of_pos (by simp [hqt, Ne.symm hkt]), List.find?_cons_of_pos (by simp [hqt])]
                simp [hq]
              · rw [List.find?_cons_of_neg (by simp [hq, hqt]), List.find?_cons_of_neg (by simpa using hqt), ih]
      · have h' : d.any (fun p => p.1 == k) = true := by
          simpa [List.any_cons, hp] using h
        by_cases hpt : p.1 = t
        · have hkt : k ≠ t := fun e => hp (hpt.trans e.symm)
          rw [if_neg hkt, List.find?_cons_of_pos (by simp [hpt, Ne.symm hkt]), List.find?_cons_of_pos (by simp [hpt])]
          simp [hp]
        · rw [List.find?_cons_of_neg (by simp [hp, hpt]), List.find?_cons_of_neg (by simpa using hpt), ih h']
  · rename_i h
    rw [List.find?_append]
    split
    · rename_i hkt
      subst hkt
      have : d.find? (fun p => p.1 == k) = none := by
        rw [List.find?_eq_none]
        intro p hp hpk
        exact h (List.any_eq_true.2 ⟨p, hp, hpk⟩)
      rw [this]
      simp
    · rename_i hkt
      simp [hkt]

/-- The blocks whose cell type is the feax type `t`. -/
def blocksOf {β : Type*} (blocks : List (String × β)) (t : String) : List (String × β) :=
  blocks.filter fun b => meshioToFeax b.1 == some t

theorem availableTypes_find {β : Type*} (blocks : List (String × β)) (t : String) :
    (availableTypes blocks).find? (fun p => p.1 == t) = ((blocksOf blocks t).getLast?).map fun b => (t, b.2) := by
  unfold availableTypes blocksOf
  induction blocks using List.reverseRecOn with
  | nil => rfl
  | append_singleton bs b ih =>
    rw [List.foldl_append, List.foldl_cons, List.foldl_nil, List.filter_append]
    cases hm : meshioToFeax b.1 with
    | none =>
      simp only
      rw [ih]
      simp [hm]
    | some ft =>
      simp only
      rw [dictSet_find, ih]
      by_cases hft : ft = t
      · subst hft
        simp [hm]
      · rw [if_neg hft]
        simp [hm, hft]

theorem availableTypes_nil {β : Type*} (blocks : List (String × β)) :
    availableTypes blocks = [] ↔ ∀ t, blocksOf blocks t = [] := by
  constructor
  · intro h t
    have := availableTypes_find blocks t
    rw [h] at this
    simpa using this
  · intro h
    cases ha : availableTypes blocks with
    | nil => rfl
    | cons p d =>
      have := availableTypes_find blocks p.1
      rw [ha, h p.1] at this
      simp at this

/-- **C45.** What a request for a type returns: the cells of the last block of that type; an error if there is none. -/
theorem C45_last_block {β : Type*} (blocks : List (String × β)) (t : String) :
    fromGmsh blocks (some t) = match (blocksOf blocks t).getLast? with
      | none => .error .valueError
      | some b => .ok (t, b.2) := by
  unfold fromGmsh
  simp only
  have hf := availableTypes_find blocks t
  cases ha : availableTypes blocks with
  | nil =>
    rw [(availableTypes_nil blocks).1 ha t]
    rfl
  | cons p d =>
    rw [ha] at hf
    simp only [hf]
    cases (blocksOf blocks t).getLast? <;> rfl

/-- **C45 (partial).** If the input holds the requested type in a single block, the mesh has exactly the cells of that
block. Missing: several blocks of the type, for which the claim is false (`C45_earlier_blocks_lost`). -/
theorem C45_single_block_partial {β : Type*} (blocks : List (String × β)) (t : String) (b : String × β)
    (h : blocksOf blocks t = [b]) : fromGmsh blocks (some t) = .ok (t, b.2) := by
  rw [C45_last_block, h]
  rfl

/-- Number of nodes of a cell of a meshio type, as in the names of meshio. -/
def meshioNodes : String → ℕ
  | "tetra" => 4
  | "tetra10" => 10
  | "hexahedron" => 8
  | "hexahedron20" => 20
  | "hexahedron27" => 27
  | "triangle" => 3
  | "triangle6" => 6
  | "quad" => 4
  | "quad8" => 8
  | "quad9" => 9
  | _ => 0

/-- **C45.** The type table keeps different cell types apart, and the cells of a block have as many nodes as the chosen element
type. -/
theorem C45_type_table (s s' t : String) (h : meshioToFeax s = some t) :
    (meshioToFeax s' = some t → s' = s) ∧ (∀ order, reOrder t = some order → order.length = meshioNodes s) ∧
      (reOrder t = none → t = "HEX27") := by
  refine ⟨?_, ?_, ?_⟩
  · intro h'
    unfold meshioToFeax at h h'
    split at h <;> simp only [Option.some.injEq, reduceCtorEq] at h <;> subst h <;>
      (split at h' <;> simp_all)
  · unfold meshioToFeax at h
    split at h <;> simp only [Option.some.injEq, reduceCtorEq] at h <;> subst h <;> intro order ho <;>
      simp [reOrder] at ho <;> subst ho <;> rfl
  · unfold meshioToFeax at h
    split at h <;> simp only [Option.some.injEq, reduceCtorEq] at h <;> subst h <;> decide

/-- **C45.** Without a requested type, the first type of the preference order that occurs in the input is chosen: hexahedra, then
tetrahedra, then quadrilaterals, then triangles. -/
theorem C45_automatic_type {β : Type*} (blocks : List (String × β)) (pre post : List String) (t : String)
    (hp : ["HEX8", "HEX20", "HEX27", "TET4", "TET10", "QUAD4", "QUAD8", "TRI3", "TRI6"] = pre ++ t :: post) (hpre : ∀ s ∈ pre, blocksOf blocks s = []) (ht : blocksOf blocks t ≠ []) :
    fromGmsh blocks none = fromGmsh blocks (some t) := by
  have hany : ∀ s, (availableTypes blocks).any (fun p => p.1 == s) = true ↔ blocksOf blocks s ≠ [] := by
    intro s
    have hf := availableTypes_find blocks s
    constructor
    · intro h hn
      rw [hn] at hf
      obtain ⟨p, hp, hps⟩ := List.any_eq_true.1 h
      exact (List.find?_eq_none.1 hf) p hp hps
    · intro h
      obtain ⟨b, hb⟩ := Option.isSome_iff_exists.1 (List.getLast?_isSome.2 h)
      rw [hb] at hf
      have := List.find?_some hf
      exact List.any_eq_true.2 ⟨_, List.mem_of_find?_eq_some hf, this⟩
  have hfind : gmshPriority.find? (fun s => (availableTypes blocks).any fun p => p.1 == s) = some t := by
    unfold gmshPriority
    rw [hp, List.find?_append]
    have : pre.find? (fun s => (availableTypes blocks).any fun p => p.1 == s) = none := by
      rw [List.find?_eq_none]
      intro s hs h
      exact (hany s).1 h (hpre s hs)
    rw [this, List.find?_cons, (hany t).2 ht]
    rfl
  unfold fromGmsh
  simp only
  cases ha : availableTypes blocks with
  | nil => rfl
  | cons p d =>
    rw [ha] at hfind
    simp only [hfind, Option.getD_some]

/-- **C45.** An input without any supported block is rejected. -/
theorem C45_unsupported_raises {β : Type*} (blocks : List (String × β)) (h : ∀ t, blocksOf blocks t = [])
    (e : Option String) : fromGmsh blocks e = .error .valueError := by
  unfold fromGmsh
  simp only [(availableTypes_nil blocks).2 h]

example : blocksOf [("line", 1), ("tetra", 2), ("triangle", 3)] "TET4" = [("tetra", 2)] ∧
    (fromGmsh [("line", 1), ("triangle", 3), ("tetra", 2)] none).toOption = some ("TET4", 2) ∧
    (fromGmsh [("line", 1)] none).toOption = none := by decide +kernel

/-- **C45 is false of the code**: with two blocks of hexahedra only the second survives. -/
theorem C45_earlier_blocks_lost :
    ∃ blocks : List (String × List (List ℕ)),
      (∃ b ∈ blocksOf blocks "HEX8", [0, 1, 2, 3, 4, 5, 6, 7] ∈ b.2) ∧
      ∃ cells, fromGmsh blocks (some "HEX8") = .ok ("HEX8", cells) ∧ [0, 1, 2, 3, 4, 5, 6, 7] ∉ cells := by
  refine ⟨[("hexahedron", [[0, 1, 2, 3, 4, 5, 6, 7]]), ("hexahedron", [[4, 5, 6, 7, 8, 9, 10, 11]])], by decide +kernel,
    [[4, 5, 6, 7, 8, 9, 10, 11]], by rfl, by decide⟩

/-! ## C46: boundary faces -/

/-- **C46.** Cell `c` and face `f` are selected exactly if the location function holds at every vertex of the face. -/
theorem C46_selected_iff {P : Type*} [Inhabited P] (points : List P) (cells : List (List ℕ)) (faceInds : List (List ℕ))
    (loc : P → ℕ → Bool) (hc : ∀ cell ∈ cells, ∀ n ∈ cell, n < points.length)
    (hf : ∀ cell ∈ cells, ∀ f ∈ faceInds, ∀ v ∈ f, v < cell.length) (c f : ℕ) :
    (c, f) ∈ boundaryInds points cells faceInds loc ↔
      ∃ cell face, cells[c]? = some cell ∧ faceInds[f]? = some face ∧
        ∀ v ∈ face, ∃ n p, cell[v]? = some n ∧ points[n]? = some p ∧ loc p n = true := by
  unfold boundaryInds
  simp only [List.mem_filter, List.mem_flatMap, List.mem_range, List.mem_map, Prod.mk.injEq]
  constructor
  · rintro ⟨⟨c', hc', f', hf', rfl, rfl⟩, h⟩
    refine ⟨cells[c'], faceInds[f'], by simp [hc'], by simp [hf'], ?_⟩
    simp only [List.getD_eq_getElem?_getD, List.getElem?_map, List.getElem?_eq_getElem hc', Option.map_some,
      Option.getD_some, List.getElem?_eq_getElem hf', List.all_eq_true] at h
    intro v hv
    have hv2 := hf _ (List.getElem_mem hc') _ (List.getElem_mem hf') v hv
    have hn := hc _ (List.getElem_mem hc') _ (List.getElem_mem hv2)
    have := h v hv
    simp only [List.getElem?_eq_getElem hv2, Option.getD_some, List.getElem?_eq_getElem hn] at this
    exact ⟨_, _, by simp [hv2], by simp [hn], this⟩
  · rintro ⟨cell, face, e1, e2, h⟩
    obtain ⟨hc', rfl⟩ := List.getElem?_eq_some_iff.1 e1
    obtain ⟨hf', rfl⟩ := List.getElem?_eq_some_iff.1 e2
    refine ⟨⟨c, hc', f, hf', rfl, rfl⟩, ?_⟩
    simp only [List.getD_eq_getElem?_getD, List.getElem?_map, e1, e2, Option.map_some, Option.getD_some,
      List.all_eq_true]
    intro v hv
    obtain ⟨n, p, h1, h2, h3⟩ := h v hv
    simp [h1, h2, h3]

/-- **C46.** No face is selected twice, and the faces come in order of cell, then face. -/
theorem C46_each_once {P : Type*} [Inhabited P] (points : List P) (cells : List (List ℕ)) (faceInds : List (List ℕ))
    (loc : P → ℕ → Bool) :
    (boundaryInds points cells faceInds loc).Nodup ∧
      (boundaryInds points cells faceInds loc).Pairwise fun a b => a.1 < b.1 ∨ (a.1 = b.1 ∧ a.2 < b.2) := by
  have hp : (boundaryInds points cells faceInds loc).Pairwise fun a b => a.1 < b.1 ∨ (a.1 = b.1 ∧ a.2 < b.2) := by
    unfold boundaryInds
    refine List.Pairwise.filter _ ?_
    rw [List.pairwise_flatMap]
    refine ⟨?_, ?_⟩
    · intro c _
      rw [List.pairwise_map]
      exact List.pairwise_lt_range.imp fun h => Or.inr ⟨rfl, h⟩
    · refine List.pairwise_lt_range.imp ?_
      intro a b hab x hx y hy
      obtain ⟨f, -, rfl⟩ := List.mem_map.1 hx
      obtain ⟨f', -, rfl⟩ := List.mem_map.1 hy
      exact Or.inl hab
  refine ⟨hp.imp ?_, hp⟩
  rintro a b h rfl
  omega

/-- What a location function says at a point with a node number. -/
def locHolds {P : Type*} : LocationFn P → P → ℕ → Bool
  | .one f, p, _ => f p
  | .two f, p, n => f p n
  | .other, _, _ => false

/-- **C46.** A list of location functions yields one region per function, in order, whether the function takes the point
only or the point and the node number; functions with another number of arguments are rejected. -/
theorem C46_regions {P : Type} [Inhabited P] (points : List P) (cells : List (List ℕ)) (faceInds : List (List ℕ))
    (fns : List (LocationFn P)) :
    ((∃ l ∈ fns, l = .other) → boundaryIndsList points cells faceInds fns = .error .valueError) ∧
      ((∀ l ∈ fns, l ≠ .other) → boundaryIndsList points cells faceInds fns
        = .ok (fns.map fun l => boundaryInds points cells faceInds (locHolds l))) := by
  induction fns with
  | nil => simp [boundaryIndsList]
  | cons l fns ih =>
    cases l with
    | other => simp [boundaryIndsList]
    | one f =>
      constructor
      · intro h
        simp only [boundaryIndsList, ih.1 (by simpa using h)]
        rfl
      · intro h
        simp only [boundaryIndsList, ih.2 (fun l hl => h l (by simp [hl]))]
        rfl
    | two f =>
      constructor
      · intro h
        simp only [boundaryIndsList, ih.1 (by simpa using h)]
        rfl
      · intro h
        simp only [boundaryIndsList, ih.2 (fun l hl => h l (by simp [hl]))]
        rfl

/-- **C46.** `count_selected_faces` is the number of faces the same function selects as a region. -/
theorem C46_count {P : Type} [Inhabited P] (points : List P) (cells : List (List ℕ)) (faceInds : List (List ℕ))
    (f : P → Bool) (r : List (List (ℕ × ℕ))) (h : boundaryIndsList points cells faceInds [.one f] = .ok r) :
    (r.map List.length) = [countSelectedFaces points cells faceInds f] := by
  rw [(C46_regions points cells faceInds [.one f]).2 (by simp)] at h
  injection h with h
  rw [← h]
  rfl

/-- **C46.** The face tables are translated to the mesh's own node order: local node `reorderInd order v` is the one that
sits at position `v` of the reference element, for every element type. -/
theorem C46_face_table (ty : String) (order : List ℕ) (h : reOrder ty = some order) :
    order.Nodup ∧ ∀ v < order.length, reorderInd order v < order.length ∧ order[reorderInd order v]? = some v := by
  have key : order.Nodup ∧ ∀ v < order.length, v ∈ order := by
    unfold reOrder at h
    split at h <;> simp only [Option.some.injEq, reduceCtorEq] at h <;> subst h <;> decide
  refine ⟨key.1, fun v hv => ?_⟩
  have hm := key.2 v hv
  unfold reorderInd
  have hl := List.idxOf_lt_length_of_mem hm
  refine ⟨hl, ?_⟩
  rw [List.getElem?_eq_getElem hl, List.getElem_idxOf hl]

/-- Two unit squares side by side, faces as edges. -/
example : boundaryInds [((0 : ℕ), (0 : ℕ)), (0, 1), (1, 0), (1, 1), (2, 0), (2, 1)] [[0, 2, 3, 1], [2, 4, 5, 3]]
    [[0, 1], [0, 3], [1, 2], [3, 2]] (fun p _ => p.1 == 0) = [(0, 1)] ∧
    boundaryInds [((0 : ℕ), (0 : ℕ)), (0, 1), (1, 0), (1, 1), (2, 0), (2, 1)] [[0, 2, 3, 1], [2, 4, 5, 3]]
    [[0, 1], [0, 3], [1, 2], [3, 2]] (fun p _ => p.2 == 1) = [(0, 3), (1, 3)] := by decide +kernel

end Verif.Props
