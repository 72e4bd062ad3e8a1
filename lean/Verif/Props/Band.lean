import Verif.Props.Grid
import Verif.Lemmas.BC
import Verif.Lemmas.Assembly
import Verif.Lemmas.Layout

/-!
# C32, C33, C34: narrow bands
-/

namespace Verif.Props

open Verif.Model Verif.Lemmas
open Verif.Model.Grid (SubMesh compactMesh)

/-! ## C33 -/

section
variable {P : Type*}

/-- `mesh` with `nodeMap` is the restriction of `cells` (with node coordinates `coords`) to the listed cells. -/
structure IsRestriction (coords : ℕ → P) (active : List (List ℕ)) (nodeMap : List ℕ) (mesh : SubMesh P) : Prop where
  numCells : mesh.cells.length = active.length
  /-- connectivity through `nodeMap` is the global connectivity -/
  connectivity : ∀ (c l n : ℕ) (row : List ℕ), active[c]? = some row → row[l]? = some n →
    ∃ (band : List ℕ) (m : ℕ), mesh.cells[c]? = some band ∧ band.length = row.length ∧ band[l]? = some m ∧
      nodeMap[m]? = some n
  numPoints : mesh.points.length = nodeMap.length
  coordinates : ∀ (m n : ℕ), nodeMap[m]? = some n → mesh.points[m]? = some (coords n)
  increasing : nodeMap.Pairwise (· < ·)
  used : ∀ n ∈ nodeMap, ∃ row ∈ active, n ∈ row

theorem compact_restriction (coords : ℕ → P) (active : List (List ℕ)) :
    IsRestriction coords active (compactMesh coords active).1 (compactMesh coords active).2 := by
  unfold compactMesh
  refine ⟨by simp, ?_, by simp, ?_, unique_lt _, ?_⟩
  · intro c l n row hrow hn
    have hmem : n ∈ unique active.flatten := by
      rw [mem_unique, List.mem_flatten]
      exact ⟨row, List.mem_of_getElem? hrow, List.mem_of_getElem? hn⟩
    exact ⟨row.map (searchsorted (unique active.flatten)), searchsorted (unique active.flatten) n,
      by simp [hrow], by simp, by simp [hn], searchsorted_sorted (unique_lt _) hmem⟩
  · intro m n h
    simp [h]
  · intro n hn
    rw [mem_unique, List.mem_flatten] at hn
    exact hn

/-- C33: the band of a mesh is the restriction of the mesh to the active cells, for any list of active cells. -/
theorem C33_band_of_mesh (d : P) (cells : List (List ℕ)) (points : List P) (active : List ℕ)
    (ha : ∀ e ∈ active, e < cells.length) (hn : ∀ c ∈ cells, ∀ n ∈ c, n < points.length) :
    let b := bandOfMesh d cells points active
    b.activeCells = active ∧ b.mesh.cells.length = active.length ∧
    (∀ (c e : ℕ), active[c]? = some e → ∃ row band, cells[e]? = some row ∧ b.mesh.cells[c]? = some band ∧
      band.map (fun m => b.nodeMap[m]?) = row.map some) ∧
    b.mesh.points.length = b.nodeMap.length ∧
    (∀ (m n : ℕ), b.nodeMap[m]? = some n → b.mesh.points[m]? = points[n]?) ∧
    b.nodeMap.Pairwise (· < ·) ∧
    (∀ n ∈ b.nodeMap, n < points.length ∧ ∃ e ∈ active, ∃ row, cells[e]? = some row ∧ n ∈ row) := by
  intro b
  have hr := compact_restriction (fun n => points.getD n d) (active.map fun e => cells.getD e [])
  have hlen : b.mesh.cells.length = active.length := hr.numCells.trans (by simp)
  have hget : ∀ e < cells.length, cells[e]? = some (cells.getD e []) := by
    intro e he
    rw [List.getElem?_eq_getElem he, List.getD_eq_getElem _ _ he]
  have hused : ∀ n ∈ b.nodeMap, n < points.length ∧ ∃ e ∈ active, ∃ row, cells[e]? = some row ∧ n ∈ row := by
    intro n hnm
    obtain ⟨row, hrow, hnr⟩ := hr.used n hnm
    rw [List.mem_map] at hrow
    obtain ⟨e, he, rfl⟩ := hrow
    refine ⟨?_, e, he, _, hget e (ha e he), hnr⟩
    exact hn _ (List.mem_of_getElem? (hget e (ha e he))) n hnr
  refine ⟨rfl, hlen, ?_, hr.numPoints, ?_, hr.increasing, hused⟩
  · intro c e hc
    have hrow : (active.map fun e => cells.getD e [])[c]? = some (cells.getD e []) := by
      rw [List.getElem?_map, hc]; rfl
    have hclt : c < b.mesh.cells.length := by
      rw [hlen]
      by_contra h
      rw [List.getElem?_eq_none (by omega)] at hc
      simp at hc
    refine ⟨cells.getD e [], b.mesh.cells[c], hget e (ha e (List.mem_of_getElem? hc)),
      List.getElem?_eq_getElem hclt, ?_⟩
    have hband : b.mesh.cells[c] = (cells.getD e []).map (searchsorted b.nodeMap) := by
      have : b.mesh.cells[c]? = some ((cells.getD e []).map (searchsorted b.nodeMap)) := by
        have e1 : b.mesh.cells = (active.map fun e => cells.getD e []).map
            fun r => r.map (searchsorted b.nodeMap) := rfl
        rw [e1, List.getElem?_map, hrow]; rfl
      rw [List.getElem?_eq_getElem hclt] at this
      simpa using this
    rw [hband, List.map_map]
    apply List.map_congr_left
    intro n hnr
    have hmem : n ∈ unique (active.map fun e => cells.getD e []).flatten := by
      rw [mem_unique, List.mem_flatten]
      exact ⟨_, List.mem_of_getElem? hrow, hnr⟩
    exact searchsorted_sorted (unique_lt _) hmem
  · intro m n hm
    have h1 := hr.coordinates m n hm
    have hlt := (hused n (List.mem_of_getElem? hm)).1
    rw [List.getElem?_eq_getElem hlt]
    have h2 : b.mesh.points[m]? = some (points.getD n d) := h1
    rw [h2, List.getD_eq_getElem _ _ hlt]

end

/-- C33 on a structured grid: the same, with the grid's connectivity and coordinates. -/
theorem C33_band_of_grid {K : Type*} [Field K] (g : Grid) (spacing origin : K × K × K) (active : List ℕ)
    (ha : ∀ e ∈ active, e < g.numCells) :
    let b := bandOfGrid g spacing origin active
    b.activeCells = active ∧ b.mesh.cells.length = active.length ∧
    (∀ (c e : ℕ), active[c]? = some e → ∃ band, b.mesh.cells[c]? = some band ∧
      band.map (fun m => b.nodeMap[m]?) = (g.cellToNodes e).map some) ∧
    b.mesh.points.length = b.nodeMap.length ∧
    (∀ (m n : ℕ), b.nodeMap[m]? = some n → b.mesh.points[m]? = some (g.nodeCoords spacing origin n)) ∧
    b.nodeMap.Pairwise (· < ·) ∧
    (∀ n ∈ b.nodeMap, n < g.numNodes ∧ ∃ e ∈ active, n ∈ g.cellToNodes e) := by
  intro b
  have hr := compact_restriction (g.nodeCoords spacing origin) (active.map g.cellToNodes)
  refine ⟨rfl, hr.numCells.trans (by simp), ?_, hr.numPoints, hr.coordinates, hr.increasing, ?_⟩
  · intro c e hc
    refine ⟨(g.cellToNodes e).map (searchsorted b.nodeMap), ?_, ?_⟩
    · have e1 : b.mesh.cells = (active.map g.cellToNodes).map fun r => r.map (searchsorted b.nodeMap) := rfl
      rw [e1, List.getElem?_map, List.getElem?_map, hc]; rfl
    · rw [List.map_map]
      apply List.map_congr_left
      intro n hnr
      have hmem : n ∈ unique (active.map g.cellToNodes).flatten := by
        rw [mem_unique, List.mem_flatten]
        exact ⟨_, List.mem_map_of_mem (List.mem_of_getElem? hc), hnr⟩
      exact searchsorted_sorted (unique_lt _) hmem
  · intro n hn
    obtain ⟨row, hrow, hnr⟩ := hr.used n hn
    rw [List.mem_map] at hrow
    obtain ⟨e, he, rfl⟩ := hrow
    exact ⟨(C30_connectivity g).2.1 e (ha e he) n hnr, e, he, hnr⟩

/-- Two triangles of a strip of three; the active cells are listed in reverse order. -/
example : let b := bandOfMesh (0 : ℕ) [[0, 1, 2], [1, 3, 2], [2, 3, 4]] [10, 11, 12, 13, 14] [2, 1]
    b.nodeMap = [1, 2, 3, 4] ∧ b.mesh.cells = [[1, 2, 3], [0, 2, 1]] ∧ b.mesh.points = [11, 12, 13, 14] := by
  decide

/-! ## C32 -/

section
variable {P α : Type*}

/-- Bands with distinct active cells and nodes of the domain. -/
structure ValidBand (b : NarrowBand P) : Prop where
  cellsNodup : b.activeCells.Nodup
  cellsLt : ∀ c ∈ b.activeCells, c < b.numFullCells
  nodesNodup : b.nodeMap.Nodup
  nodesLt : ∀ n ∈ b.nodeMap, n < b.numFullNodes

/-- Bands built from a mesh with a duplicate-free active list are such. -/
theorem validBand_of_mesh (d : P) (cells : List (List ℕ)) (points : List P) (active : List ℕ) (hd : active.Nodup)
    (ha : ∀ e ∈ active, e < cells.length) (hn : ∀ c ∈ cells, ∀ n ∈ c, n < points.length) :
    ValidBand (bandOfMesh d cells points active) := by
  obtain ⟨_, _, _, _, _, h6, h7⟩ := C33_band_of_mesh d cells points active ha hn
  exact ⟨hd, ha, h6.imp fun h => h.ne, fun n h => (h7 n h).1⟩

/-- Bands built from a grid with a duplicate-free active list are such. -/
theorem validBand_of_grid {K : Type*} [Field K] (g : Grid) (spacing origin : K × K × K) (active : List ℕ)
    (hd : active.Nodup) (ha : ∀ e ∈ active, e < g.numCells) : ValidBand (bandOfGrid g spacing origin active) := by
  obtain ⟨_, _, _, _, _, h6, h7⟩ := C33_band_of_grid g spacing origin active ha
  exact ⟨hd, ha, h6.imp fun h => h.ne, fun n h => (h7 n h).1⟩

theorem any_false {l : List ℕ} {n : ℕ} (h : ∀ c ∈ l, c < n) : l.any (fun c => decide (n ≤ c)) = false := by
  rw [List.any_eq_false]
  intro c hc
  have := h c hc
  simp; omega

theorem list_ext_getD {β : Type*} (d : β) {l m : List β} (hl : l.length = m.length)
    (h : ∀ k < l.length, l.getD k d = m.getD k d) : l = m := by
  apply List.ext_getElem hl
  intro k h1 h2
  have := h k h1
  rw [List.getD_eq_getElem _ _ h1, List.getD_eq_getElem _ _ h2] at this
  exact this

theorem gather_scatterSet {β : Type*} (d fill : β) (n : ℕ) (idx : List ℕ) (vals : List β) (hn : idx.Nodup)
    (hlt : ∀ i ∈ idx, i < n) (hl : vals.length = idx.length) :
    gather d (scatterSet (List.replicate n fill) idx vals) idx = vals := by
  apply list_ext_getD d (by simp [gather, hl])
  intro k hk
  have hk' : k < idx.length := by simpa [gather] using hk
  rw [gather_getD _ _ _ _ hk']
  apply scatterSet_getD_nodup _ _ _ _ hn k hk' (by omega)
  rw [List.length_replicate]
  apply hlt
  rw [List.getD_eq_getElem _ _ hk']
  exact List.getElem_mem hk'

theorem scatterSet_gather {β : Type*} (d fill : β) (n : ℕ) (idx : List ℕ) (full : List β) (hn : idx.Nodup)
    (hlt : ∀ i ∈ idx, i < n) (i : ℕ) (hi : i < n) :
    (scatterSet (List.replicate n fill) idx (gather d full idx)).getD i d = if i ∈ idx then full.getD i d else fill := by
  split
  · rename_i hm
    obtain ⟨k, hk, rfl⟩ := List.mem_iff_getElem.1 hm
    have e : idx[k] = idx.getD k 0 := by rw [List.getD_eq_getElem _ _ hk]
    rw [e, scatterSet_getD_nodup d _ idx _ hn k hk (by simpa [gather] using hk)
      (by rw [List.length_replicate]; apply hlt; rw [← e]; exact List.getElem_mem hk), gather_getD _ _ _ _ hk]
  · rename_i hm
    rw [scatterSet_getD_not_mem _ _ _ _ _ hm, List.getD_eq_getElem _ _ (by simpa using hi)]
    simp

/-- C32 for cell fields, on meshes with more than one cell: gather after scatter is the identity; scatter after
gather has the full field's values on the active cells and the fill value elsewhere. -/
theorem C32_cell_fields_partial (b : NarrowBand P) (hb : ValidBand b) (h1 : b.numFullCells ≠ 1) (d fill : α) :
    (∀ x : List α, x.length = b.activeCells.length →
      ∃ y, b.scatterCells fill x = .ok y ∧ b.gatherCells d y = .ok x) ∧
    (∀ y : List α, y.length = b.numFullCells →
      ∃ x z, b.gatherCells d y = .ok x ∧ b.scatterCells fill x = .ok z ∧ z.length = b.numFullCells ∧
        ∀ c < b.numFullCells, z.getD c d = if c ∈ b.activeCells then y.getD c d else fill) := by
  have ha := any_false hb.cellsLt
  constructor
  · intro x hx
    refine ⟨scatterSet (List.replicate b.numFullCells fill) b.activeCells x, ?_, ?_⟩
    · unfold NarrowBand.scatterCells
      rw [ha]
      simp only [Bool.false_eq_true, if_false]
      rw [if_pos hx]
    · unfold NarrowBand.gatherCells
      rw [if_neg (by simp [scatterSet_length]), if_neg h1, ha]
      simp only [Bool.false_eq_true, if_false]
      rw [gather_scatterSet d fill _ _ _ hb.cellsNodup hb.cellsLt hx]
  · intro y hy
    refine ⟨gather d y b.activeCells, scatterSet (List.replicate b.numFullCells fill) b.activeCells
      (gather d y b.activeCells), ?_, ?_, by simp [scatterSet_length], ?_⟩
    · unfold NarrowBand.gatherCells
      rw [if_neg (by simp [hy]), if_neg h1, ha]
      simp only [Bool.false_eq_true, if_false]
    · unfold NarrowBand.scatterCells
      rw [ha]
      simp only [Bool.false_eq_true, if_false]
      rw [if_pos (by simp [gather])]
    · intro c hc
      exact scatterSet_gather d fill _ _ _ hb.cellsNodup hb.cellsLt c hc

/-- C32 fails for cell fields on a mesh of one cell: `gather_cells` raises for every field of the right
length. -/
theorem C32_single_cell_gather_raises (b : NarrowBand P) (h1 : b.numFullCells = 1) (d x : α) :
    b.gatherCells d [x] = .error .indexError := by
  unfold NarrowBand.gatherCells
  rw [if_neg (by simp [h1]), if_pos h1]

/-- C32: fields of the wrong size are refused. A cell field whose length is not the number of cells of the full mesh, parameters
with surface variables, and parameters with a variable that is neither per cell nor per node raise `ValueError`. -/
theorem C32_wrong_sizes_refused (b : NarrowBand P) (d : α) :
    (∀ full : List α, full.length ≠ b.numFullCells → b.gatherCells d full = .error .valueError) ∧
    (∀ vol n, n ≠ 0 → b.gatherParams d vol n = .error .valueError) ∧
    (∀ v rest, v.length ≠ b.numFullCells → v.length ≠ b.numFullNodes → b.gatherParams d (v :: rest) 0 = .error .valueError) := by
  refine ⟨?_, ?_, ?_⟩
  · intro full h
    unfold NarrowBand.gatherCells
    rw [if_pos h]
  · intro vol n h
    unfold NarrowBand.gatherParams
    rw [if_pos h]
  · intro v rest h1 h2
    unfold NarrowBand.gatherParams
    rw [if_neg (by simp), List.mapM_cons, if_neg h1, if_neg h2]
    rfl

theorem flat_getD_row (d : α) (vec : ℕ) (rows : List (List α)) (h : ∀ r ∈ rows, r.length = vec) (i c : ℕ)
    (hi : i < rows.length) (hc : c < vec) : rows.flatten.getD (i * vec + c) d = (rows.getD i []).getD c d := by
  have h1 := reshapeRows_of_flatten vec rows h
  have h2 := reshapeRows_getD rows.length vec rows.flatten i hi
  rw [h1] at h2
  rw [h2]
  simp only [List.getD_eq_getElem?_getD, List.getElem?_take, List.getElem?_drop]
  rw [if_pos hc]

theorem reshapeRows_row_length (n vec : ℕ) (xs : List α) (h : xs.length = n * vec) :
    ∀ r ∈ reshapeRows n vec xs, r.length = vec := by
  intro r hr
  unfold reshapeRows at hr
  rw [List.mem_map] at hr
  obtain ⟨i, hi, rfl⟩ := hr
  rw [List.mem_range] at hi
  rw [List.length_take, List.length_drop, h]
  have : (i + 1) * vec ≤ n * vec := Nat.mul_le_mul_right vec hi
  have e : (i + 1) * vec = i * vec + vec := by ring
  omega

theorem mem_scatterSet {β : Type*} {arr : List β} {idx : List ℕ} {vals : List β} {x : β}
    (h : x ∈ scatterSet arr idx vals) : x ∈ arr ∨ x ∈ vals := by
  induction idx generalizing arr vals with
  | nil => exact Or.inl h
  | cons i is ih =>
    cases vals with
    | nil => exact Or.inl h
    | cons v vs =>
      have e : scatterSet arr (i :: is) (v :: vs) = scatterSet (arr.set i v) is vs := rfl
      rw [e] at h
      rcases ih h with h | h
      · rcases List.mem_or_eq_of_mem_set h with h | h
        · exact Or.inl h
        · exact Or.inr (by simp [h])
      · exact Or.inr (by simp [h])

/-- C32 for node solutions: gather after scatter is the identity; scatter after gather has the full solution's
values at the band's nodes and zero elsewhere, component by component. -/
theorem C32_node_solutions (b : NarrowBand P) (hb : ValidBand b) (vec : ℕ) (zero : α) :
    (∀ x : List α, x.length = b.nodeMap.length * vec →
      ∃ y, b.scatterSol zero x vec = .ok y ∧ b.gatherSol y vec = .ok x) ∧
    (∀ y : List α, y.length = b.numFullNodes * vec →
      ∃ x z, b.gatherSol y vec = .ok x ∧ b.scatterSol zero x vec = .ok z ∧ z.length = b.numFullNodes * vec ∧
        ∀ n < b.numFullNodes, ∀ c < vec,
          z.getD (n * vec + c) zero = if n ∈ b.nodeMap then y.getD (n * vec + c) zero else zero) := by
  constructor
  · intro x hx
    have hrows := reshapeRows_row_length b.nodeMap.length vec x hx
    have hlen : ∀ r ∈ scatterSet (List.replicate b.numFullNodes (List.replicate vec zero)) b.nodeMap
        (reshapeRows b.nodeMap.length vec x), r.length = vec := by
      intro r hr
      rcases mem_scatterSet hr with h | h
      · rw [List.eq_of_mem_replicate h, List.length_replicate]
      · exact hrows r h
    have hl2 : (scatterSet (List.replicate b.numFullNodes (List.replicate vec zero)) b.nodeMap
        (reshapeRows b.nodeMap.length vec x)).length = b.numFullNodes := by simp [scatterSet_length]
    refine ⟨_, by unfold NarrowBand.scatterSol; rw [if_neg (by simp [hx])], ?_⟩
    unfold NarrowBand.gatherSol
    have hfl : (scatterSet (List.replicate b.numFullNodes (List.replicate vec zero)) b.nodeMap
        (reshapeRows b.nodeMap.length vec x)).flatten.length = b.numFullNodes * vec := by
      rw [List.length_flatten, List.map_congr_left hlen, List.map_const', List.sum_replicate, hl2]
      simp
    rw [if_neg (by simp only [ne_eq, not_not]; exact hfl)]
    have h1 := reshapeRows_of_flatten vec _ hlen
    rw [hl2] at h1
    rw [h1, gather_scatterSet [] _ _ _ _ hb.nodesNodup hb.nodesLt (by simp), reshapeRows_flatten _ _ _ hx]
  · intro y hy
    have hrows := reshapeRows_row_length b.numFullNodes vec y hy
    have hgr : ∀ r ∈ gather [] (reshapeRows b.numFullNodes vec y) b.nodeMap, r.length = vec := by
      intro r hr
      unfold gather at hr
      rw [List.mem_map] at hr
      obtain ⟨i, hi, rfl⟩ := hr
      have := hb.nodesLt i hi
      rw [List.getD_eq_getElem _ _ (by simpa using this)]
      exact hrows _ (List.getElem_mem _)
    have hgl : (gather [] (reshapeRows b.numFullNodes vec y) b.nodeMap).length = b.nodeMap.length := by simp [gather]
    have hxl : (gather [] (reshapeRows b.numFullNodes vec y) b.nodeMap).flatten.length = b.nodeMap.length * vec := by
      rw [List.length_flatten, List.map_congr_left hgr, List.map_const', List.sum_replicate, hgl]
      simp
    have hre := reshapeRows_of_flatten vec _ hgr
    rw [hgl] at hre
    have hlen : ∀ r ∈ scatterSet (List.replicate b.numFullNodes (List.replicate vec zero)) b.nodeMap
        (gather [] (reshapeRows b.numFullNodes vec y) b.nodeMap), r.length = vec := by
      intro r hr
      rcases mem_scatterSet hr with h | h
      · rw [List.eq_of_mem_replicate h, List.length_replicate]
      · exact hgr r h
    have hl2 : (scatterSet (List.replicate b.numFullNodes (List.replicate vec zero)) b.nodeMap
        (gather [] (reshapeRows b.numFullNodes vec y) b.nodeMap)).length = b.numFullNodes := by simp [scatterSet_length]
    refine ⟨_, (scatterSet (List.replicate b.numFullNodes (List.replicate vec zero)) b.nodeMap
        (gather [] (reshapeRows b.numFullNodes vec y) b.nodeMap)).flatten,
      by unfold NarrowBand.gatherSol; rw [if_neg (by simp [hy])], ?_, ?_, ?_⟩
    · unfold NarrowBand.scatterSol
      rw [if_neg (by simp only [ne_eq, not_not]; exact hxl)]
      simp only
      rw [hre]
    · rw [List.length_flatten, List.map_congr_left hlen, List.map_const', List.sum_replicate, hl2]
      simp
    · intro n hn c hc
      rw [flat_getD_row zero vec _ hlen n c (by rw [hl2]; exact hn) hc,
        scatterSet_gather [] _ _ _ _ hb.nodesNodup hb.nodesLt n hn]
      split
      · have h3 := flat_getD_row zero vec _ hrows n c (by simpa using hn) hc
        rw [reshapeRows_flatten _ _ _ hy] at h3
        exact h3.symm
      · rw [List.getD_eq_getElem _ _ (by simpa using hc)]
        simp

theorem mapM_ok {β γ : Type*} (f : β → Except PyErr γ) (g : β → γ) (l : List β) (h : ∀ x ∈ l, f x = .ok (g x)) :
    l.mapM f = .ok (l.map g) := by
  induction l with
  | nil => rfl
  | cons a rest ih =>
    rw [List.mapM_cons, h a (by simp), ih fun x hx => h x (by simp [hx])]
    rfl

/-- C32 for TracedParams (partial): if the numbers of cells and nodes of the full domain differ (or those of the
band agree), gather after scatter is the identity on volume variables of band size. Missing: the coinciding
counts, where it fails (`C32_params_gather_after_scatter_fails`). -/
theorem C32_params_gather_after_scatter_partial (b : NarrowBand P) (hb : ValidBand b) (d fill : α)
    (hne : b.numFullCells ≠ b.numFullNodes ∨ b.activeCells.length = b.nodeMap.length) (vol : List (List α))
    (hv : ∀ v ∈ vol, v.length = b.activeCells.length ∨ v.length = b.nodeMap.length) :
    ∃ full, b.scatterParams fill vol = .ok full ∧ b.gatherParams d full 0 = .ok vol := by
  classical
  let g : List α → List α := fun v =>
    if v.length = b.activeCells.length then scatterSet (List.replicate b.numFullCells fill) b.activeCells v
    else scatterSet (List.replicate b.numFullNodes fill) b.nodeMap v
  refine ⟨vol.map g, ?_, ?_⟩
  · unfold NarrowBand.scatterParams
    apply mapM_ok
    intro v hvm
    by_cases h : v.length = b.activeCells.length
    · simp only [g, if_pos h]
    · have h2 : v.length = b.nodeMap.length := (hv v hvm).resolve_left h
      simp only [g, if_neg h, if_pos h2]
  · unfold NarrowBand.gatherParams
    rw [if_neg (by simp)]
    have key : ∀ v ∈ vol, (if (g v).length = b.numFullCells then (Except.ok (gather d (g v) b.activeCells) : Except PyErr (List α))
        else if (g v).length = b.numFullNodes then .ok (gather d (g v) b.nodeMap) else .error .valueError) = .ok v := by
      intro v hvm
      by_cases h : v.length = b.activeCells.length
      · simp only [g, if_pos h]
        rw [if_pos (by simp [scatterSet_length]), gather_scatterSet d fill _ _ _ hb.cellsNodup hb.cellsLt h]
      · have h2 : v.length = b.nodeMap.length := (hv v hvm).resolve_left h
        have h3 : b.numFullCells ≠ b.numFullNodes := by
          rcases hne with h' | h'
          · exact h'
          · exact absurd (h2.trans h'.symm) h
        simp only [g, if_neg h]
        rw [if_neg (by rw [scatterSet_length, List.length_replicate]; exact fun e => h3 e.symm),
          if_pos (by simp [scatterSet_length]), gather_scatterSet d fill _ _ _ hb.nodesNodup hb.nodesLt h2]
    rw [show vol.map g = vol.map g from rfl]
    have := mapM_ok (fun v : List α => if v.length = b.numFullCells then (Except.ok (gather d v b.activeCells) : Except PyErr (List α))
        else if v.length = b.numFullNodes then .ok (gather d v b.nodeMap) else .error .valueError)
        (fun v => if v.length = b.numFullCells then gather d v b.activeCells else gather d v b.nodeMap) (vol.map g) (by
          intro w hw
          rw [List.mem_map] at hw
          obtain ⟨v, hvm, rfl⟩ := hw
          have hk := key v hvm
          by_cases h1 : (g v).length = b.numFullCells
          · simp only [if_pos h1]
          · by_cases h2 : (g v).length = b.numFullNodes
            · simp only [if_neg h1, if_pos h2]
            · rw [if_neg h1, if_neg h2] at hk; simp at hk)
    rw [this, List.map_map]
    congr 1
    conv_rhs => rw [← List.map_id vol]
    apply List.map_congr_left
    intro v hvm
    have hk := key v hvm
    simp only [Function.comp, id]
    by_cases h1 : (g v).length = b.numFullCells
    · rw [if_pos h1] at hk ⊢
      simpa using hk
    · by_cases h2 : (g v).length = b.numFullNodes
      · rw [if_neg h1] at hk ⊢
        rw [if_pos h2] at hk
        simpa using hk
      · rw [if_neg h1, if_neg h2] at hk; simp at hk

/-- C32 for TracedParams (partial): if the numbers of cells and nodes of the band differ (or those of the full
domain agree), scattering a gathered variable gives a variable of the original length with the original values
at the band's cells (nodes) and the fill value elsewhere. Missing: the coinciding counts, where it fails
(`C32_params_scatter_after_gather_fails`). -/
theorem C32_params_scatter_after_gather_partial (b : NarrowBand P) (hb : ValidBand b) (d fill : α)
    (hne : b.activeCells.length ≠ b.nodeMap.length ∨ b.numFullCells = b.numFullNodes) (v : List α)
    (hv : v.length = b.numFullCells ∨ v.length = b.numFullNodes) :
    ∃ x z, b.gatherParams d [v] 0 = .ok [x] ∧ b.scatterParams fill [x] = .ok [z] ∧ z.length = v.length ∧
      ∀ i < v.length, z.getD i d =
        if i ∈ (if v.length = b.numFullCells then b.activeCells else b.nodeMap) then v.getD i d else fill := by
  by_cases h : v.length = b.numFullCells
  · refine ⟨gather d v b.activeCells, scatterSet (List.replicate b.numFullCells fill) b.activeCells
      (gather d v b.activeCells), ?_, ?_, by simp [scatterSet_length, h], ?_⟩
    · unfold NarrowBand.gatherParams
      rw [if_neg (by simp)]
      simp only [List.mapM_cons, List.mapM_nil, if_pos h]
      rfl
    · unfold NarrowBand.scatterParams
      have : (gather d v b.activeCells).length = b.activeCells.length := by simp [gather]
      simp only [List.mapM_cons, List.mapM_nil, if_pos this]
      rfl
    · intro i hi
      rw [if_pos h]
      exact scatterSet_gather d fill _ _ _ hb.cellsNodup hb.cellsLt i (by omega)
  · have h2 := hv.resolve_left h
    have h3 : b.activeCells.length ≠ b.nodeMap.length := by
      rcases hne with h' | h'
      · exact h'
      · exact absurd (h2.trans h'.symm) h
    refine ⟨gather d v b.nodeMap, scatterSet (List.replicate b.numFullNodes fill) b.nodeMap
      (gather d v b.nodeMap), ?_, ?_, by simp [scatterSet_length, h2], ?_⟩
    · unfold NarrowBand.gatherParams
      rw [if_neg (by simp)]
      simp only [List.mapM_cons, List.mapM_nil, if_neg h, if_pos h2]
      rfl
    · unfold NarrowBand.scatterParams
      have e1 : (gather d v b.nodeMap).length = b.nodeMap.length := by simp [gather]
      have e2 : (gather d v b.nodeMap).length ≠ b.activeCells.length := by rw [e1]; exact fun e => h3 e.symm
      simp only [List.mapM_cons, List.mapM_nil, if_neg e2, if_pos e1]
      rfl
    · intro i hi
      rw [if_neg h]
      exact scatterSet_gather d fill _ _ _ hb.nodesNodup hb.nodesLt i (by omega)

end

/-- The boundary of a tetrahedron: four triangles, four nodes. -/
def exTetSurface : List (List ℕ) := [[0, 1, 2], [0, 1, 3], [0, 2, 3], [1, 2, 3]]

/-- C32 fails for TracedParams, one way: on a mesh with as many cells as nodes, a node variable of the band
(one triangle, three nodes) comes back from scatter and gather with a single entry. -/
theorem C32_params_gather_after_scatter_fails :
    ∃ b : NarrowBand ℕ, ValidBand b ∧ b = bandOfMesh 0 exTetSurface [0, 0, 0, 0] [0] ∧
      b.scatterParams 0 [[5, 6, 7]] = .ok [[5, 6, 7, 0]] ∧ b.gatherParams 0 [[5, 6, 7, 0]] 0 = .ok [[5]] := by
  refine ⟨_, validBand_of_mesh 0 exTetSurface [0, 0, 0, 0] [0] (by decide) (by decide) (by decide), rfl, ?_, ?_⟩
  · rfl
  · rfl

/-- C32 fails for TracedParams, the other way: on a band with as many cells as nodes inside a larger mesh (five
triangles, six nodes), a node variable comes back from gather and scatter as a variable on the five cells. -/
theorem C32_params_scatter_after_gather_fails :
    ∃ b : NarrowBand ℕ, ValidBand b ∧ b = bandOfMesh 0 (exTetSurface ++ [[3, 4, 5]]) [0, 0, 0, 0, 0, 0] [0, 1, 2, 3] ∧
      b.gatherParams 0 [[1, 2, 3, 4, 5, 6]] 0 = .ok [[1, 2, 3, 4]] ∧
      b.scatterParams 0 [[1, 2, 3, 4]] = .ok [[1, 2, 3, 4, 0]] := by
  refine ⟨_, validBand_of_mesh 0 (exTetSurface ++ [[3, 4, 5]]) [0, 0, 0, 0, 0, 0] [0, 1, 2, 3] (by decide) (by decide)
    (by decide), rfl, ?_, ?_⟩
  · rfl
  · rfl

/-- A band of two of the three triangles of a strip satisfies all the hypotheses above. -/
example : let b := bandOfMesh (0 : ℕ) [[0, 1, 2], [1, 3, 2], [2, 3, 4]] [10, 11, 12, 13, 14] [2, 1]
    ValidBand b ∧ b.numFullCells ≠ 1 ∧ b.numFullCells ≠ b.numFullNodes ∧ b.activeCells.length ≠ b.nodeMap.length ∧
    b.gatherCells 0 [7, 8, 9] = .ok [9, 8] ∧ b.scatterCells 0 [9, 8] = .ok [0, 8, 9] := by
  exact ⟨validBand_of_mesh 0 _ _ _ (by decide) (by decide) (by decide), by decide, by decide, by decide, rfl, rfl⟩

/-! ## C34 -/

/-- `f` is within `m` rings of the cells `S`: a chain of `m` cells, consecutive ones sharing a node. -/
inductive WithinRings (cells : List (List ℕ)) (S : List ℕ) : ℕ → ℕ → Prop
  | zero {e : ℕ} : e ∈ S → WithinRings cells S 0 e
  | succ {m e f : ℕ} : WithinRings cells S m e → f < cells.length →
      (∃ n, n ∈ cells.getD e [] ∧ n ∈ cells.getD f []) → WithinRings cells S (m + 1) f

/-- A valid mesh: every cell has a node, nodes are in range. -/
def ValidMesh (cells : List (List ℕ)) (numNodes : ℕ) : Prop :=
  (∀ c ∈ cells, c ≠ []) ∧ ∀ c ∈ cells, ∀ n ∈ c, n < numNodes

theorem mem_dilateRings (cells : List (List ℕ)) (numNodes : ℕ) (hv : ValidMesh cells numNodes) (m : ℕ) (S : List ℕ)
    (f : ℕ) : f ∈ dilateRings cells numNodes m S ↔ WithinRings cells S m f := by
  have key : ∀ (m : ℕ) (S : List ℕ) (f : ℕ), WithinRings cells (nodeAdjacentCells cells numNodes S) m f ↔
      WithinRings cells S (m + 1) f := by
    intro m S
    induction m with
    | zero =>
      intro f
      constructor
      · intro h
        cases h with
        | zero h =>
          obtain ⟨h1, e, he, hs⟩ := (mem_nodeAdjacent cells numNodes S hv.2 f).1 h
          exact .succ (.zero he) h1 hs
      · intro h
        cases h with
        | succ h h1 h2 =>
          cases h with
          | zero he => exact .zero ((mem_nodeAdjacent cells numNodes S hv.2 f).2 ⟨h1, _, he, h2⟩)
    | succ n ih =>
      intro f
      constructor
      · intro h
        cases h with
        | succ h h1 h2 => exact .succ ((ih _).1 h) h1 h2
      · intro h
        cases h with
        | succ h h1 h2 => exact .succ ((ih _).2 h) h1 h2
  induction m generalizing S with
  | zero =>
    constructor
    · intro h; exact .zero h
    · intro h
      cases h with
      | zero h => exact h
  | succ n ih =>
    have e : dilateRings cells numNodes (n + 1) S = dilateRings cells numNodes n (nodeAdjacentCells cells numNodes S) := rfl
    rw [e]
    exact (ih _).trans (key n S f)

theorem within_lt {cells : List (List ℕ)} {S : List ℕ} (hS : ∀ e ∈ S, e < cells.length) {m f : ℕ}
    (h : WithinRings cells S m f) : f < cells.length := by
  cases h with
  | zero h => exact hS _ h
  | succ _ h _ => exact h

theorem within_mono {cells : List (List ℕ)} {numNodes : ℕ} (hv : ValidMesh cells numNodes) {S : List ℕ}
    (hS : ∀ e ∈ S, e < cells.length) {a b f : ℕ} (hab : a ≤ b) (h : WithinRings cells S a f) :
    WithinRings cells S b f := by
  induction hab with
  | refl => exact h
  | step _ ih =>
    have hf := within_lt hS ih
    refine .succ ih hf ?_
    have hne := hv.1 cells[f] (List.getElem_mem hf)
    obtain ⟨n, hn⟩ := List.exists_mem_of_ne_nil _ hne
    refine ⟨n, ?_, ?_⟩ <;> rw [List.getD_eq_getElem _ _ hf] <;> exact hn

/-- A history of the documented protocol from a fresh manager, and the manager after it. -/
def afterHistory (cells : List (List ℕ)) (numNodes margin guard : ℕ) (hist : List (List ℕ)) : SupersetBand :=
  hist.foldl SupersetBand.iterate ⟨cells, numNodes, margin, guard, none⟩

theorem iterate_fields (s : SupersetBand) (a : List ℕ) :
    (s.iterate a).cells = s.cells ∧ (s.iterate a).numNodes = s.numNodes ∧ (s.iterate a).margin = s.margin ∧
      (s.iterate a).guard = s.guard := by
  unfold SupersetBand.iterate
  split <;> exact ⟨rfl, rfl, rfl, rfl⟩

theorem afterHistory_fields (cells : List (List ℕ)) (numNodes margin guard : ℕ) (hist : List (List ℕ)) :
    (afterHistory cells numNodes margin guard hist).cells = cells ∧
    (afterHistory cells numNodes margin guard hist).numNodes = numNodes ∧
    (afterHistory cells numNodes margin guard hist).margin = margin ∧
    (afterHistory cells numNodes margin guard hist).guard = guard := by
  unfold afterHistory
  have : ∀ (s : SupersetBand) (l : List (List ℕ)), (l.foldl SupersetBand.iterate s).cells = s.cells ∧
      (l.foldl SupersetBand.iterate s).numNodes = s.numNodes ∧ (l.foldl SupersetBand.iterate s).margin = s.margin ∧
      (l.foldl SupersetBand.iterate s).guard = s.guard := by
    intro s l
    induction l generalizing s with
    | nil => exact ⟨rfl, rfl, rfl, rfl⟩
    | cons a rest ih =>
      obtain ⟨h1, h2, h3, h4⟩ := ih (s.iterate a)
      obtain ⟨k1, k2, k3, k4⟩ := iterate_fields s a
      exact ⟨h1.trans k1, h2.trans k2, h3.trans k3, h4.trans k4⟩
  exact this _ hist

theorem needs_false_iff (s : SupersetBand) (hv : ValidMesh s.cells s.numNodes) (a : List ℕ)
    (ha : ∀ e ∈ a, e < s.cells.length) (sup : List ℕ) (hs : s.superset = some sup) :
    s.needsReextract a = false ↔ ∀ f, WithinRings s.cells a s.guard f → f ∈ sup := by
  unfold SupersetBand.needsReextract
  rw [hs]
  simp only [Bool.not_eq_false', List.all_eq_true]
  constructor
  · intro h f hf
    have h1 := h f ((mem_dilateRings _ _ hv _ _ _).2 hf)
    have hlt := within_lt ha hf
    rw [List.getD_eq_getElem _ _ (by simpa using hlt)] at h1
    simpa using h1
  · intro h f hf
    have h1 := (mem_dilateRings _ _ hv _ _ _).1 hf
    have hlt := within_lt ha h1
    rw [List.getD_eq_getElem _ _ (by simpa using hlt)]
    simpa using h f h1

/-- C34 (partial: `margin ≥ guard`). After any history of active sets, when the protocol has processed the
current active set there is a superset and it contains every cell within `guard` rings of the active cells;
`needs_reextract` for that active set is then false. Missing: `guard > margin`, where both fail
(`C34_guard_above_margin_fails`). -/
theorem C34_superset_covers_partial (cells : List (List ℕ)) (numNodes margin guard : ℕ) (hv : ValidMesh cells numNodes)
    (hmg : guard ≤ margin) (hist : List (List ℕ)) (a : List ℕ) (ha : ∀ e ∈ a, e < cells.length) :
    let s := (afterHistory cells numNodes margin guard hist).iterate a
    ∃ sup, s.superset = some sup ∧ (∀ f, WithinRings cells a guard f → f ∈ sup) ∧ s.needsReextract a = false := by
  intro s
  obtain ⟨h1, h2, h3, h4⟩ := afterHistory_fields cells numNodes margin guard hist
  obtain ⟨k1, k2, k3, k4⟩ := iterate_fields (afterHistory cells numNodes margin guard hist) a
  set s0 := afterHistory cells numNodes margin guard hist with hs0
  have main : ∃ sup, s.superset = some sup ∧ (∀ f, WithinRings cells a guard f → f ∈ sup) := by
    by_cases hn : s0.needsReextract a = true
    · have e : s = s0.reextract a := by
        change s0.iterate a = _
        unfold SupersetBand.iterate
        rw [if_pos hn]
      rw [e]
      refine ⟨_, rfl, ?_⟩
      intro f hf
      rw [h1, h2, h3, mem_dilateRings _ _ hv]
      exact within_mono hv ha hmg hf
    · have e : s = s0 := by
        change s0.iterate a = _
        unfold SupersetBand.iterate
        rw [if_neg hn]
      have hf : s0.needsReextract a = false := by simpa using hn
      cases hsup : s0.superset with
      | none =>
        unfold SupersetBand.needsReextract at hf
        rw [hsup] at hf
        simp at hf
      | some sup =>
        rw [e]
        refine ⟨sup, hsup, ?_⟩
        have := (needs_false_iff s0 (by rw [h1, h2]; exact hv) a (by rw [h1]; exact ha) sup hsup).1 hf
        rw [h1, h4] at this
        exact this
  obtain ⟨sup, e1, e2⟩ := main
  refine ⟨sup, e1, e2, ?_⟩
  rw [needs_false_iff s (by rw [k1, k2, h1, h2]; exact hv) a (by rw [k1, h1]; exact ha) sup e1, k1, k4, h1, h4]
  exact e2

/-- C34, any margin and guard: at every solve the superset contains the active cells themselves. -/
theorem C34_active_cells_covered (cells : List (List ℕ)) (numNodes margin guard : ℕ) (hv : ValidMesh cells numNodes)
    (hist : List (List ℕ)) (a : List ℕ) (ha : ∀ e ∈ a, e < cells.length) :
    ∃ sup, ((afterHistory cells numNodes margin guard hist).iterate a).superset = some sup ∧ ∀ e ∈ a, e ∈ sup := by
  obtain ⟨h1, h2, h3, h4⟩ := afterHistory_fields cells numNodes margin guard hist
  set s0 := afterHistory cells numNodes margin guard hist with hs0
  by_cases hn : s0.needsReextract a = true
  · have e : s0.iterate a = s0.reextract a := by
      unfold SupersetBand.iterate
      rw [if_pos hn]
    rw [e]
    refine ⟨_, rfl, ?_⟩
    intro f hf
    rw [h1, h2, h3, mem_dilateRings _ _ hv]
    exact within_mono hv ha (Nat.zero_le _) (.zero hf)
  · have e : s0.iterate a = s0 := by
      unfold SupersetBand.iterate
      rw [if_neg hn]
    have hf : s0.needsReextract a = false := by simpa using hn
    cases hsup : s0.superset with
    | none =>
      unfold SupersetBand.needsReextract at hf
      rw [hsup] at hf
      simp at hf
    | some sup =>
      rw [e]
      refine ⟨sup, hsup, ?_⟩
      intro f hfa
      have := (needs_false_iff s0 (by rw [h1, h2]; exact hv) a (by rw [h1]; exact ha) sup hsup).1 hf f
      rw [h1, h4] at this
      exact this (within_mono hv ha (Nat.zero_le _) (.zero hfa))

/-- A strip of four two-node cells. -/
def exStrip : List (List ℕ) := [[0, 1], [1, 2], [2, 3], [3, 4]]

/-- C34 fails with `guard = 2 > margin = 1`: right after re-extracting for the active cell 0, the superset is
cells 0 and 1, cell 2 within two rings is not in it, and re-extraction is requested again. -/
theorem C34_guard_above_margin_fails :
    ∃ s : SupersetBand, s = (afterHistory exStrip 5 1 2 []).iterate [0] ∧ s.superset = some [0, 1] ∧
      WithinRings exStrip [0] 2 2 ∧ s.needsReextract [0] = true := by
  refine ⟨_, rfl, by decide, ?_, by decide⟩
  have h0 : WithinRings exStrip [0] 0 0 := .zero (by decide)
  have h1 : WithinRings exStrip [0] 1 1 := .succ h0 (by decide) ⟨1, by decide, by decide⟩
  exact .succ h1 (by decide) ⟨2, by decide, by decide⟩

/-- The hypotheses are met: the strip is a valid mesh; with margin 2 and guard 1 the superset for cell 0 is kept
when cell 1 becomes active and extended when cell 2 does. -/
example : ValidMesh exStrip 5 ∧
    ((afterHistory exStrip 5 2 1 [[0]]).iterate [1]).superset = some [0, 1, 2] ∧
    ((afterHistory exStrip 5 2 1 [[0], [1]]).iterate [2]).superset = some [0, 1, 2, 3] := by
  refine ⟨⟨by decide, by decide⟩, by decide, by decide⟩

/-- The band of `from_field`: cells within `margin` rings of the cells above the threshold (for a node field,
having a node above it), and the kept ones. -/
theorem C34_from_field (cells : List (List ℕ)) (numNodes : ℕ) (hv : ValidMesh cells numNodes) (above : ℕ → Bool)
    (cellField : Bool) (margin : ℕ) (keep : List ℕ) (f : ℕ) :
    f ∈ fromFieldCells cells numNodes above cellField margin (some keep) ↔ f ∈ keep ∨
      WithinRings cells ((List.range cells.length).filter fun c =>
        if cellField then above c else (cells.getD c []).any above) margin f := by
  unfold fromFieldCells
  simp only [mem_unique, List.mem_append, mem_dilateRings cells numNodes hv]
  exact or_comm

/-- A band of two of the three triangles of a strip. -/
def exBand : NarrowBand ℕ := bandOfMesh 0 [[0, 1, 2], [1, 3, 2], [2, 3, 4]] [10, 11, 12, 13, 14] [2, 1]

theorem exBand_valid : ValidBand exBand := validBand_of_mesh 0 _ _ _ (by decide) (by decide) (by decide)

theorem exStrip_valid : ValidMesh exStrip 5 := ⟨by decide, by decide⟩

example := C32_cell_fields_partial exBand exBand_valid (by decide) (0 : ℤ) 0
example := C32_node_solutions exBand exBand_valid 2 (0 : ℤ)
example := C32_params_gather_after_scatter_partial exBand exBand_valid (0 : ℤ) 0 (Or.inl (by decide)) [[5, 6], [1, 2, 3, 4]] (by decide)
example := C32_params_scatter_after_gather_partial exBand exBand_valid (0 : ℤ) 0 (Or.inl (by decide)) [5, 6, 7] (by decide)
example := C33_band_of_mesh (0 : ℕ) [[0, 1, 2], [1, 3, 2], [2, 3, 4]] [10, 11, 12, 13, 14] [2, 1] (by decide) (by decide)
example := C34_active_cells_covered exStrip 5 2 1 exStrip_valid [[0], [1]] [2] (by decide)
example := C34_from_field exStrip 5 exStrip_valid (fun i => i == 2) false 1 [3] 0
example := C34_superset_covers_partial exStrip 5 2 1 exStrip_valid (by decide) [[0], [1]] [2] (by decide)

end Verif.Props
