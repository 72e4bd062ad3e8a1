import Verif.Model.Cmg
import Verif.Model.Band
import Verif.Lemmas.Grid
import Verif.Lemmas.CsrBuild
import Verif.Props.CmgElement

/-!
# The level hierarchy of the geometric multigrid solver (C109) and its transfers (C110)
-/

namespace Verif.Props
open Verif.Model Verif.Model.Cmg Verif.Lemmas Matrix

namespace Spec

/-- `⌈n / 2ˡ⌉`. -/
def ceilShift (l n : ℕ) : ℕ := (n + 2 ^ l - 1) / 2 ^ l

/-- The smallest dimension after `l` halvings. -/
def minDim (l : ℕ) (d : ℕ × ℕ × ℕ) : ℕ := min (ceilShift l d.1) (min (ceilShift l d.2.1) (ceilShift l d.2.2))

/-- What a user expects of level `l` over the cells of a grid: halved dimensions, exactly the boxes of `2ˡ` cells per side
that touch the band, exactly their nodes in increasing order, and per cell the positions of its eight corners. -/
def LevelOf (g : Grid) (cells : List ℕ) (l : ℕ) (lev : Level) : Prop :=
  lev.g = ⟨ceilShift l g.nx, ceilShift l g.ny, ceilShift l g.nz⟩ ∧
  (∀ e, e ∈ lev.cells ↔ ∃ f ∈ cells, e = lev.g.cellId ((g.cellIjk f).1 / 2 ^ l, (g.cellIjk f).2.1 / 2 ^ l, (g.cellIjk f).2.2 / 2 ^ l)) ∧
  (∀ e ∈ lev.cells, e < lev.g.numCells) ∧
  lev.cells.Pairwise (· ≤ ·) ∧
  lev.nodes.Pairwise (· < ·) ∧
  (∀ n, n ∈ lev.nodes ↔ ∃ e ∈ lev.cells, n ∈ lev.g.cellToNodes e) ∧
  lev.ncid.length = lev.cells.length ∧
  ∀ k (hk : k < lev.cells.length) (a : Fin 8), (lev.ncid.getD k []).getD a 0 < lev.nodes.length ∧
    lev.nodes.getD ((lev.ncid.getD k []).getD a 0) 0 =
      lev.g.nodeId ((lev.g.cellIjk lev.cells[k]).1 + (corner a).1, (lev.g.cellIjk lev.cells[k]).2.1 + (corner a).2.1,
        (lev.g.cellIjk lev.cells[k]).2.2 + (corner a).2.2)

/-- Affine in each of three coordinates: constants, linear and trilinear fields. -/
def Trilinear (f : ℝ → ℝ → ℝ → ℝ) : Prop :=
  (∀ y z, ∃ a b, ∀ x, f x y z = a + b * x) ∧ (∀ x z, ∃ a b, ∀ y, f x y z = a + b * y) ∧
    ∀ x y, ∃ a b, ∀ z, f x y z = a + b * z

/-- The value of a field at a node of a level, in units of that level's cells, stretched by `s`. -/
def atNode (g : Grid) (s : ℝ) (f : ℝ → ℝ → ℝ → ℝ) (n : ℕ) : ℝ :=
  f (s * (g.nodeIjk n).1) (s * (g.nodeIjk n).2.1) (s * (g.nodeIjk n).2.2)

end Spec

/-! ## Halvings -/

theorem ceilShift_zero (n : ℕ) : Spec.ceilShift 0 n = n := by simp [Spec.ceilShift]

theorem ceilShift_half (l n : ℕ) : Spec.ceilShift l ((n + 1) / 2) = Spec.ceilShift (l + 1) n := by
  unfold Spec.ceilShift
  rw [pow_succ, Nat.mul_comm (2 ^ l) 2, ← Nat.div_div_eq_div_mul]
  have : 0 < 2 ^ l := by positivity
  congr 1
  omega

theorem minDim_half (l : ℕ) (d : ℕ × ℕ × ℕ) :
    Spec.minDim l ((d.1 + 1) / 2, (d.2.1 + 1) / 2, (d.2.2 + 1) / 2) = Spec.minDim (l + 1) d := by
  simp only [Spec.minDim, ceilShift_half]

theorem minDim_zero (d : ℕ × ℕ × ℕ) : Spec.minDim 0 d = min d.1 (min d.2.1 d.2.2) := by
  simp only [Spec.minDim, ceilShift_zero]

theorem autoLevels_some (floor : ℤ) (hf : 1 ≤ floor) : ∀ (m : ℕ) (d : ℕ × ℕ × ℕ), min d.1 (min d.2.1 d.2.2) ≤ m →
    ∃ L, 1 ≤ L ∧ (∀ fuel, m < fuel → autoLevels floor fuel d = some L) ∧ (Spec.minDim (L - 1) d : ℤ) ≤ floor ∧
      ∀ k, k + 1 < L → floor < (Spec.minDim k d : ℤ) := by
  intro m
  induction m with
  | zero =>
    intro d hd
    refine ⟨1, le_refl _, fun fuel hfu => ?_, ?_, fun k hk => by omega⟩
    · obtain ⟨f, rfl⟩ : ∃ f, fuel = f + 1 := ⟨fuel - 1, by omega⟩
      unfold autoLevels
      rw [if_neg (by omega)]
    · rw [show 1 - 1 = 0 from rfl, minDim_zero]; omega
  | succ m ih =>
    intro d hd
    by_cases h : floor < ((min d.1 (min d.2.1 d.2.2) : ℕ) : ℤ)
    · obtain ⟨L, h1, h2, h3, h4⟩ := ih ((d.1 + 1) / 2, (d.2.1 + 1) / 2, (d.2.2 + 1) / 2) (by
        show min ((d.1 + 1) / 2) (min ((d.2.1 + 1) / 2) ((d.2.2 + 1) / 2)) ≤ m
        omega)
      refine ⟨L + 1, by omega, fun fuel hfu => ?_, ?_, fun k hk => ?_⟩
      · obtain ⟨f, rfl⟩ : ∃ f, fuel = f + 1 := ⟨fuel - 1, by omega⟩
        unfold autoLevels
        rw [if_pos h, h2 f (by omega)]
        rfl
      · rw [minDim_half] at h3
        rwa [show L + 1 - 1 = L - 1 + 1 by omega]
      · cases k with
        | zero => rwa [minDim_zero]
        | succ k => rw [← minDim_half]; exact h4 k (by omega)
    · refine ⟨1, le_refl _, fun fuel hfu => ?_, ?_, fun k hk => by omega⟩
      · obtain ⟨f, rfl⟩ : ∃ f, fuel = f + 1 := ⟨fuel - 1, by omega⟩
        unfold autoLevels
        rw [if_neg h]
      · rw [show 1 - 1 = 0 from rfl, minDim_zero]; omega

/-- C109: for a floor of at least one, the depth is the least number of levels whose coarsest smallest dimension is at most the
floor, and the loop that computes it ends. -/
theorem C109_auto_levels (floor : ℤ) (hf : 1 ≤ floor) (d : ℕ × ℕ × ℕ) :
    ∃ L, 1 ≤ L ∧ (∃ m, ∀ fuel, m < fuel → autoLevels floor fuel d = some L) ∧ (Spec.minDim (L - 1) d : ℤ) ≤ floor ∧
      ∀ k, k + 1 < L → floor < (Spec.minDim k d : ℤ) := by
  obtain ⟨L, h1, h2, h3, h4⟩ := autoLevels_some floor hf _ d (le_refl _)
  exact ⟨L, h1, ⟨_, h2⟩, h3, h4⟩

example : autoLevels 4 10 (33, 20, 9) = some 3 := by decide

/-- C109, what does not hold: with a floor below one the depth is never found for a grid with cells, as `⌈1/2⌉ = 1`. -/
theorem C109_auto_levels_diverges (floor : ℤ) (hf : floor < 1) (fuel : ℕ) (d : ℕ × ℕ × ℕ) (h1 : 1 ≤ d.1) (h2 : 1 ≤ d.2.1)
    (h3 : 1 ≤ d.2.2) : autoLevels floor fuel d = none := by
  induction fuel generalizing d with
  | zero => rfl
  | succ f ih =>
    unfold autoLevels
    rw [if_pos (by omega), ih _ (by simp only; omega) (by simp only; omega) (by simp only; omega)]
    rfl

/-! ## One level -/

theorem nodeTriple_eq (g : Grid) (n : ℕ) : nodeTriple g n = g.nodeIjk n := rfl

theorem cornerNodes_eq (g : Grid) (e : ℕ) :
    cornerNodes g e = (List.finRange 8).map fun a =>
      g.nodeId ((g.cellIjk e).1 + (corner a).1, (g.cellIjk e).2.1 + (corner a).2.1, (g.cellIjk e).2.2 + (corner a).2.2) := by
  unfold cornerNodes Grid.nodeId Grid.cellIjk
  apply List.map_congr_left
  intro a _
  ring

theorem corner_le (a : Fin 8) : (corner a).1 ≤ 1 ∧ (corner a).2.1 ≤ 1 ∧ (corner a).2.2 ≤ 1 := by
  revert a; decide

theorem corner_inj : Function.Injective corner := by
  intro a b
  revert a b; decide

theorem mem_hexOffsets_iff (o : ℕ × ℕ × ℕ) : o ∈ hexOffsets ↔ ∃ a, corner a = o := by
  constructor
  · have : ∀ o ∈ hexOffsets, ∃ a, corner a = o := by decide
    exact this o
  · rintro ⟨a, rfl⟩
    revert a; decide

theorem mem_cornerNodes (g : Grid) (e n : ℕ) : n ∈ cornerNodes g e ↔ n ∈ g.cellToNodes e := by
  rw [cornerNodes_eq, cellToNodes_eq]
  simp only [List.mem_map, List.mem_finRange, true_and, mem_hexOffsets_iff]
  constructor
  · rintro ⟨a, rfl⟩; exact ⟨_, ⟨a, rfl⟩, rfl⟩
  · rintro ⟨o, ⟨a, rfl⟩, rfl⟩; exact ⟨a, rfl⟩

theorem mkLevel_nodes_mem (g : Grid) (cells : List ℕ) (n : ℕ) :
    n ∈ (mkLevel g cells).nodes ↔ ∃ e ∈ cells, n ∈ g.cellToNodes e := by
  simp only [mkLevel, mem_unique, List.mem_flatten, List.mem_map]
  constructor
  · rintro ⟨_, ⟨e, he, rfl⟩, hn⟩; exact ⟨e, he, (mem_cornerNodes g e n).mp hn⟩
  · rintro ⟨e, he, hn⟩; exact ⟨_, ⟨e, he, rfl⟩, (mem_cornerNodes g e n).mpr hn⟩

theorem mkLevel_ncid (g : Grid) (cells : List ℕ) (k : ℕ) (hk : k < cells.length) (a : Fin 8) :
    (((mkLevel g cells).ncid.getD k []).getD a 0) = searchsorted (mkLevel g cells).nodes
      (g.nodeId ((g.cellIjk cells[k]).1 + (corner a).1, (g.cellIjk cells[k]).2.1 + (corner a).2.1,
        (g.cellIjk cells[k]).2.2 + (corner a).2.2)) := by
  have h1 : (mkLevel g cells).ncid.getD k [] = (cornerNodes g cells[k]).map (searchsorted (mkLevel g cells).nodes) := by
    rw [List.getD_eq_getElem _ _ (by simpa [mkLevel] using hk)]
    simp [mkLevel]
  rw [h1, cornerNodes_eq, List.map_map, List.getD_eq_getElem _ _ (by simp)]
  simp

theorem corner_mem (g : Grid) (e : ℕ) (a : Fin 8) :
    g.nodeId ((g.cellIjk e).1 + (corner a).1, (g.cellIjk e).2.1 + (corner a).2.1, (g.cellIjk e).2.2 + (corner a).2.2) ∈
      g.cellToNodes e := by
  rw [← mem_cornerNodes, cornerNodes_eq]
  exact List.mem_map.mpr ⟨a, List.mem_finRange _, rfl⟩

theorem parentCell_eq (g : Grid) (e : ℕ) :
    parentCell g e = (coarseGrid g).cellId ((g.cellIjk e).1 / 2, (g.cellIjk e).2.1 / 2, (g.cellIjk e).2.2 / 2) := by
  unfold parentCell Grid.cellId Grid.cellIjk
  ring

theorem parent_bounds (g : Grid) (e : ℕ) (he : e < g.numCells) :
    (g.cellIjk e).1 / 2 < (coarseGrid g).nx ∧ (g.cellIjk e).2.1 / 2 < (coarseGrid g).ny ∧
      (g.cellIjk e).2.2 / 2 < (coarseGrid g).nz := by
  obtain ⟨_, h1, h2, h3⟩ := cellId_cellIjk g e he
  simp only [coarseGrid]
  omega

theorem parentCell_lt (g : Grid) (e : ℕ) (he : e < g.numCells) : parentCell g e < (coarseGrid g).numCells := by
  obtain ⟨h1, h2, h3⟩ := parent_bounds g e he
  rw [parentCell_eq]
  exact cellId_lt _ _ h1 h2 h3

theorem parentCell_ijk (g : Grid) (e : ℕ) (he : e < g.numCells) :
    (coarseGrid g).cellIjk (parentCell g e) = ((g.cellIjk e).1 / 2, (g.cellIjk e).2.1 / 2, (g.cellIjk e).2.2 / 2) := by
  obtain ⟨h1, h2, h3⟩ := parent_bounds g e he
  rw [parentCell_eq, cellIjk_cellId _ _ h2 h3]

theorem mkLevel_of (g : Grid) (cells : List ℕ) (hc : ∀ e ∈ cells, e < g.numCells) (hs : cells.Pairwise (· ≤ ·)) :
    Spec.LevelOf g cells 0 (mkLevel g cells) := by
  have hu : (mkLevel g cells).nodes.Pairwise (· < ·) := unique_lt _
  refine ⟨?_, fun e => ?_, hc, hs, hu, mkLevel_nodes_mem g cells, by simp [mkLevel], fun k hk a => ?_⟩
  · simp only [ceilShift_zero]; rfl
  · show e ∈ cells ↔ _
    simp only [pow_zero, Nat.div_one]
    constructor
    · intro he; exact ⟨e, he, (cellId_cellIjk g e (hc e he)).1.symm⟩
    · rintro ⟨f, hf, rfl⟩
      show g.cellId (g.cellIjk f) ∈ cells
      rwa [(cellId_cellIjk g f (hc f hf)).1]
  · have hk' : k < cells.length := hk
    rw [mkLevel_ncid g cells k hk' a]
    have hm : g.nodeId ((g.cellIjk cells[k]).1 + (corner a).1, (g.cellIjk cells[k]).2.1 + (corner a).2.1,
        (g.cellIjk cells[k]).2.2 + (corner a).2.2) ∈ (mkLevel g cells).nodes :=
      (mkLevel_nodes_mem g cells _).mpr ⟨_, List.getElem_mem hk', corner_mem g _ a⟩
    exact searchsorted_mem hu hm

theorem levelOf_shift (g : Grid) (cells : List ℕ) (hc : ∀ e ∈ cells, e < g.numCells) (l : ℕ) (lev : Level)
    (h : Spec.LevelOf (coarseGrid g) (unique (cells.map (parentCell g))) l lev) : Spec.LevelOf g cells (l + 1) lev := by
  obtain ⟨h1, h2, h3⟩ := h
  refine ⟨?_, fun e => ?_, h3⟩
  · rw [h1]
    simp only [coarseGrid, ceilShift_half]
  · rw [h2]
    simp only [mem_unique, List.mem_map]
    constructor
    · rintro ⟨_, ⟨f, hf, rfl⟩, rfl⟩
      refine ⟨f, hf, ?_⟩
      rw [parentCell_ijk g f (hc f hf)]
      simp only [Nat.div_div_eq_div_mul, ← pow_succ']
    · rintro ⟨f, hf, rfl⟩
      refine ⟨_, ⟨f, hf, rfl⟩, ?_⟩
      rw [parentCell_ijk g f (hc f hf)]
      simp only [Nat.div_div_eq_div_mul, ← pow_succ']

theorem buildFrom_levels : ∀ (L : ℕ) (g : Grid) (cells : List ℕ), (∀ e ∈ cells, e < g.numCells) → cells.Pairwise (· ≤ ·) →
    (buildFrom L g cells).length = L ∧ ∀ l lev, (buildFrom L g cells)[l]? = some lev → Spec.LevelOf g cells l lev := by
  intro L
  induction L with
  | zero => intro g cells _ _; simp [buildFrom]
  | succ L ih =>
    intro g cells hc hs
    obtain ⟨h1, h2⟩ := ih (coarseGrid g) (unique (cells.map (parentCell g))) (by
      intro e he
      rw [mem_unique, List.mem_map] at he
      obtain ⟨f, hf, rfl⟩ := he
      exact parentCell_lt g f (hc f hf)) ((unique_lt _).imp fun h => h.le)
    refine ⟨by simp [buildFrom, h1], fun l lev hl => ?_⟩
    cases l with
    | zero =>
      simp [buildFrom] at hl
      subst hl
      exact mkLevel_of g cells hc hs
    | succ l =>
      simp only [buildFrom, List.getElem?_cons_succ] at hl
      exact levelOf_shift g cells hc l lev (h2 l lev hl)

theorem mem_sortedCells (cells : List ℕ) (e : ℕ) : e ∈ cells.insertionSort (· ≤ ·) ↔ e ∈ cells :=
  (List.perm_insertionSort _ _).mem_iff

/-- C109: `build` returns as many levels as asked for, and level `l` is the band seen at boxes of `2ˡ` cells per side, for any
grid, odd sizes included, and any band. -/
theorem C109_levels (L : ℕ) (g : Grid) (cells : List ℕ) (hc : ∀ e ∈ cells, e < g.numCells) :
    (build L g cells).length = L ∧ ∀ l lev, (build L g cells)[l]? = some lev → Spec.LevelOf g cells l lev := by
  obtain ⟨h1, h2⟩ := buildFrom_levels L g (cells.insertionSort (· ≤ ·))
    (fun e he => hc e ((mem_sortedCells cells e).mp he)) (List.pairwise_insertionSort _ _)
  refine ⟨h1, fun l lev hl => ?_⟩
  obtain ⟨a1, a2, a3⟩ := h2 l lev hl
  refine ⟨a1, fun e => ?_, a3⟩
  rw [a2]
  simp only [mem_sortedCells]

example : (build 3 ⟨5, 3, 2⟩ [29, 0, 7]).map (fun l => (l.cells, l.nodes.length)) =
    [([0, 7, 29], 22), ([0, 5], 16), ([0, 1], 12)] := by decide

/-- C109: the displacement is laid out as in the band of the same cells: the level-0 nodes are its node map. -/
theorem C109_band_layout {K : Type*} [Field K] (spacing origin : K × K × K) (L : ℕ) (g : Grid) (cells : List ℕ) :
    ((build (L + 1) g cells).head?.map (·.nodes)) = some (bandOfGrid g spacing origin cells).nodeMap := by
  simp only [build, buildFrom, List.head?_cons, Option.map_some, Option.some.injEq, bandOfGrid, Grid.compactMesh]
  apply sorted_ext (unique_lt _) (unique_lt _)
  intro n
  refine (mkLevel_nodes_mem g _ n).trans ?_
  simp only [mem_sortedCells, mem_unique, List.mem_flatten, List.mem_map]
  constructor
  · rintro ⟨e, he, hn⟩; exact ⟨_, ⟨e, he, rfl⟩, hn⟩
  · rintro ⟨_, ⟨e, he, rfl⟩, hn⟩; exact ⟨e, he, hn⟩

/-- C109, what does not hold: entry `i` of the design belongs to the `i`-th smallest cell. The band of the same cells keeps the
order given, so its design is applied to the right cells exactly if that order is increasing. Nothing warns otherwise. -/
theorem C109_design_order {K : Type*} [Field K] (spacing origin : K × K × K) (L : ℕ) (g : Grid) (cells : List ℕ) :
    ((build (L + 1) g cells).head?.map (·.cells)) = some (bandOfGrid g spacing origin cells).activeCells ↔
      cells.Pairwise (· ≤ ·) := by
  simp only [build, buildFrom, List.head?_cons, Option.map_some, Option.some.injEq, bandOfGrid, mkLevel]
  constructor
  · intro h
    rw [← h]
    exact List.pairwise_insertionSort _ _
  · exact fun h => List.Pairwise.insertionSort_eq h

example : ((build 1 ⟨2, 1, 1⟩ [1, 0]).head?.map (·.cells)) = some [0, 1] ∧
    (bandOfGrid (K := ℚ) ⟨2, 1, 1⟩ (1, 1, 1) (0, 0, 0) [1, 0]).activeCells = [1, 0] := ⟨by decide, rfl⟩

/-! ## Colours -/

theorem cell_node_ijk (g : Grid) (e : ℕ) (he : e < g.numCells) (a : Fin 8) :
    g.nodeIjk (g.nodeId ((g.cellIjk e).1 + (corner a).1, (g.cellIjk e).2.1 + (corner a).2.1, (g.cellIjk e).2.2 + (corner a).2.2)) =
      ((g.cellIjk e).1 + (corner a).1, (g.cellIjk e).2.1 + (corner a).2.1, (g.cellIjk e).2.2 + (corner a).2.2) := by
  obtain ⟨_, h1, h2, h3⟩ := cellId_cellIjk g e he
  obtain ⟨c1, c2, c3⟩ := corner_le a
  apply nodeIjk_nodeId <;> simp only <;> omega

/-- C109: there are eight colours, and two different nodes of one cell never have the same, so the nodes of a colour can be
updated at once. -/
theorem C109_colours (g : Grid) (n m : ℕ) : colorOf g n < 8 ∧
    ∀ e, e < g.numCells → n ∈ g.cellToNodes e → m ∈ g.cellToNodes e → colorOf g n = colorOf g m → n = m := by
  constructor
  · simp only [colorOf]; omega
  · intro e he hn hm hcol
    rw [← mem_cornerNodes, cornerNodes_eq, List.mem_map] at hn hm
    obtain ⟨a, _, rfl⟩ := hn
    obtain ⟨b, _, rfl⟩ := hm
    simp only [colorOf, nodeTriple_eq, cell_node_ijk g e he] at hcol
    obtain ⟨a1, a2, a3⟩ := corner_le a
    obtain ⟨b1, b2, b3⟩ := corner_le b
    have h1 : (corner a).1 = (corner b).1 := by omega
    have h2 : (corner a).2.1 = (corner b).2.1 := by omega
    have h3 : (corner a).2.2 = (corner b).2.2 := by omega
    rw [h1, h2, h3]

example : (cornerNodes ⟨2, 2, 2⟩ 3).map (colorOf ⟨2, 2, 2⟩) = [3, 2, 1, 0, 7, 6, 5, 4] := by decide

/-! ## Transfers -/

theorem transferEntry_hit (coarse : Level) (hu : coarse.nodes.Pairwise (· < ·)) (c : ℕ × ℕ × ℕ) (w : ℝ) (hw : 0 < w)
    (h1 : c.1 ≤ coarse.g.nx) (h2 : c.2.1 ≤ coarse.g.ny) (h3 : c.2.2 ≤ coarse.g.nz) (hm : coarse.g.nodeId c ∈ coarse.nodes) :
    transferEntry coarse c w = (searchsorted coarse.nodes (coarse.g.nodeId c), w) := by
  have e : c.1 * ((coarse.g.ny + 1) * (coarse.g.nz + 1)) + c.2.1 * (coarse.g.nz + 1) + c.2.2 = coarse.g.nodeId c := by
    unfold Grid.nodeId; ring
  obtain ⟨hlt, hget⟩ := searchsorted_mem hu hm
  unfold transferEntry
  simp only [e]
  rw [min_eq_left (by omega), if_pos ⟨⟨hw, h1, h2, h3⟩, hget⟩]

theorem transferEntry_zero (coarse : Level) (c : ℕ × ℕ × ℕ) : transferEntry coarse c 0 = (coarse.nodes.length, 0) := by
  unfold transferEntry
  simp

theorem axisParents_nonneg {i : ℕ} {x : ℕ × ℝ} (hx : x ∈ axisParents i) : 0 ≤ x.2 := by
  simp only [axisParents, List.mem_cons, List.not_mem_nil, or_false] at hx
  rcases hx with rfl | rfl <;> simp only <;> split_ifs <;> norm_num

theorem axisParents_near {ex d : ℕ} (hd : d ≤ 1) {x : ℕ × ℝ} (hx : x ∈ axisParents (ex + d)) (hw : x.2 ≠ 0) :
    ex / 2 ≤ x.1 ∧ x.1 ≤ ex / 2 + 1 := by
  simp only [axisParents, List.mem_cons, List.not_mem_nil, or_false] at hx
  rcases hx with rfl | rfl
  · simp only; omega
  · simp only at hw ⊢
    split_ifs at hw with h
    · exact absurd rfl hw
    · omega

theorem axis_sum (i : ℕ) (φ : ℝ → ℝ) (h : ∃ a b, ∀ t, φ t = a + b * t) :
    ((axisParents i).map fun x => x.2 * φ (2 * (x.1 : ℝ))).sum = φ i := by
  obtain ⟨a, b, h⟩ := h
  have hi : (i : ℝ) = 2 * ((i / 2 : ℕ) : ℝ) + ((i % 2 : ℕ) : ℝ) := by exact_mod_cast (Nat.div_add_mod i 2).symm
  simp only [axisParents, List.map_cons, List.map_nil, List.sum_cons, List.sum_nil, add_zero, h, Nat.cast_add, Nat.cast_one]
  rw [hi]
  rcases Nat.mod_two_eq_zero_or_one i with h0 | h0
  · simp [h0]
  · simp [h0]; ring

/-- An entry of the row of a band node carries the trilinear weight, and points at the coarse node if that is not zero. -/
theorem transferEntry_spec (g : Grid) (cells : List ℕ) (hc : ∀ e ∈ cells, e < g.numCells) (n : ℕ)
    (hn : n ∈ (mkLevel g cells).nodes) {x y z : ℕ × ℝ} (hx : x ∈ axisParents (g.nodeIjk n).1)
    (hy : y ∈ axisParents (g.nodeIjk n).2.1) (hz : z ∈ axisParents (g.nodeIjk n).2.2) :
    let coarse := mkLevel (coarseGrid g) (unique (cells.map (parentCell g)))
    let q := transferEntry coarse (x.1, y.1, z.1) (x.2 * y.2 * z.2)
    q.2 = x.2 * y.2 * z.2 ∧ (q.2 ≠ 0 → q.1 < coarse.nodes.length ∧
      coarse.g.nodeIjk (coarse.nodes.getD q.1 0) = (x.1, y.1, z.1)) := by
  intro coarse q
  have hu : coarse.nodes.Pairwise (· < ·) := unique_lt _
  by_cases hw : x.2 * y.2 * z.2 = 0
  · have : q = (coarse.nodes.length, 0) := by
      show transferEntry coarse (x.1, y.1, z.1) (x.2 * y.2 * z.2) = _
      rw [hw]; exact transferEntry_zero _ _
    rw [this]
    exact ⟨hw.symm, fun h => absurd rfl h⟩
  · have hx0 : x.2 ≠ 0 := fun h => hw (by rw [h]; ring)
    have hy0 : y.2 ≠ 0 := fun h => hw (by rw [h]; ring)
    have hz0 : z.2 ≠ 0 := fun h => hw (by rw [h]; ring)
    obtain ⟨e, he, hne⟩ := (mkLevel_nodes_mem g cells n).mp hn
    have hlt := hc e he
    rw [← mem_cornerNodes, cornerNodes_eq, List.mem_map] at hne
    obtain ⟨a, _, rfl⟩ := hne
    rw [cell_node_ijk g e hlt] at hx hy hz
    obtain ⟨c1, c2, c3⟩ := corner_le a
    have nx := axisParents_near c1 hx hx0
    have ny := axisParents_near c2 hy hy0
    have nz := axisParents_near c3 hz hz0
    obtain ⟨b1, b2, b3⟩ := parent_bounds g e hlt
    have hpos : 0 < x.2 * y.2 * z.2 :=
      lt_of_le_of_ne (mul_nonneg (mul_nonneg (axisParents_nonneg hx) (axisParents_nonneg hy)) (axisParents_nonneg hz))
        (Ne.symm hw)
    have hm : coarse.g.nodeId (x.1, y.1, z.1) ∈ coarse.nodes := by
      refine (mkLevel_nodes_mem _ _ _).mpr ⟨parentCell g e, mem_unique.mpr (List.mem_map.mpr ⟨e, he, rfl⟩), ?_⟩
      refine (mem_cellToNodes (coarseGrid g) (parentCell_lt g e hlt) (by omega) (by omega)).mpr ?_
      rw [parentCell_ijk g e hlt]
      exact ⟨nx, ny, nz⟩
    have hq : q = (searchsorted coarse.nodes (coarse.g.nodeId (x.1, y.1, z.1)), x.2 * y.2 * z.2) :=
      transferEntry_hit coarse hu _ _ hpos (by show x.1 ≤ (coarseGrid g).nx; omega)
        (by show y.1 ≤ (coarseGrid g).ny; omega) (by show z.1 ≤ (coarseGrid g).nz; omega) hm
    obtain ⟨hlt', hget⟩ := searchsorted_mem hu hm
    rw [hq]
    refine ⟨rfl, fun _ => ⟨hlt', ?_⟩⟩
    simp only
    rw [hget]
    exact nodeIjk_nodeId _ _ (by show y.1 ≤ (coarseGrid g).ny; omega) (by show z.1 ≤ (coarseGrid g).nz; omega)

theorem buildFrom_pair : ∀ (L : ℕ) (g : Grid) (cells : List ℕ), (∀ e ∈ cells, e < g.numCells) → ∀ l fine coarse,
    (buildFrom L g cells)[l]? = some fine → (buildFrom L g cells)[l + 1]? = some coarse →
    ∃ g' cs, (∀ e ∈ cs, e < g'.numCells) ∧ fine = mkLevel g' cs ∧ coarse = mkLevel (coarseGrid g') (unique (cs.map (parentCell g'))) := by
  intro L
  induction L with
  | zero => intro g cells _ l fine coarse h; simp [buildFrom] at h
  | succ L ih =>
    intro g cells hc l fine coarse h1 h2
    have hc' : ∀ e ∈ unique (cells.map (parentCell g)), e < (coarseGrid g).numCells := by
      intro e he
      rw [mem_unique, List.mem_map] at he
      obtain ⟨f, hf, rfl⟩ := he
      exact parentCell_lt g f (hc f hf)
    cases l with
    | zero =>
      simp only [buildFrom, List.getElem?_cons_zero, List.getElem?_cons_succ, Option.some.injEq] at h1 h2
      cases L with
      | zero => simp [buildFrom] at h2
      | succ L =>
        simp only [buildFrom, List.getElem?_cons_zero, Option.some.injEq] at h2
        exact ⟨g, cells, hc, h1.symm, h2.symm⟩
    | succ l =>
      simp only [buildFrom, List.getElem?_cons_succ] at h1 h2
      exact ih _ _ hc' l fine coarse h1 h2

theorem sum_flatMap_real {α : Type*} (l : List α) (f : α → List ℝ) : (l.flatMap f).sum = (l.map fun x => (f x).sum).sum := by
  induction l with
  | nil => rfl
  | cons a l ih => simp [ih]

theorem transferRow_interp (g : Grid) (cells : List ℕ) (hc : ∀ e ∈ cells, e < g.numCells) (n : ℕ)
    (hn : n ∈ (mkLevel g cells).nodes) (f : ℝ → ℝ → ℝ → ℝ) (hf : Spec.Trilinear f) :
    let coarse := mkLevel (coarseGrid g) (unique (cells.map (parentCell g)))
    ((transferRow (mkLevel g cells) coarse n).map fun q => q.2 * Spec.atNode coarse.g 2 f (coarse.nodes.getD q.1 0)).sum =
      Spec.atNode g 1 f n := by
  intro coarse
  have hv : ∀ x ∈ axisParents (g.nodeIjk n).1, ∀ y ∈ axisParents (g.nodeIjk n).2.1, ∀ z ∈ axisParents (g.nodeIjk n).2.2,
      (transferEntry coarse (x.1, y.1, z.1) (x.2 * y.2 * z.2)).2 * Spec.atNode coarse.g 2 f
        (coarse.nodes.getD (transferEntry coarse (x.1, y.1, z.1) (x.2 * y.2 * z.2)).1 0) =
      x.2 * (y.2 * (z.2 * f (2 * (x.1 : ℝ)) (2 * (y.1 : ℝ)) (2 * (z.1 : ℝ)))) := by
    intro x hx y hy z hz
    obtain ⟨h1, h2⟩ := transferEntry_spec g cells hc n hn hx hy hz
    by_cases hw : (transferEntry coarse (x.1, y.1, z.1) (x.2 * y.2 * z.2)).2 = 0
    · rw [hw, zero_mul]
      have hw' : x.2 * y.2 * z.2 = 0 := h1 ▸ hw
      linear_combination (-f (2 * (x.1 : ℝ)) (2 * (y.1 : ℝ)) (2 * (z.1 : ℝ))) * hw'
    · have := (h2 hw).2
      unfold Spec.atNode
      rw [this, h1]
      ring
  have e1 : ((transferRow (mkLevel g cells) coarse n).map fun q => q.2 * Spec.atNode coarse.g 2 f (coarse.nodes.getD q.1 0)).sum =
      ((axisParents (g.nodeIjk n).1).map fun x => x.2 * ((axisParents (g.nodeIjk n).2.1).map fun y => y.2 *
        ((axisParents (g.nodeIjk n).2.2).map fun z => z.2 * f (2 * (x.1 : ℝ)) (2 * (y.1 : ℝ)) (2 * (z.1 : ℝ))).sum).sum).sum := by
    unfold transferRow
    simp only [List.map_flatMap, List.map_map, sum_flatMap_real, ← List.sum_map_mul_left]
    congr 1
    refine List.map_congr_left fun x hx => ?_
    congr 1
    refine List.map_congr_left fun y hy => ?_
    congr 1
    refine List.map_congr_left fun z hz => ?_
    exact hv x hx y hy z hz
  rw [e1]
  have e2 : ∀ x y : ℝ, ((axisParents (g.nodeIjk n).2.2).map fun z => z.2 * f x y (2 * (z.1 : ℝ))).sum = f x y (g.nodeIjk n).2.2 :=
    fun x y => axis_sum _ (fun z => f x y z) (hf.2.2 x y)
  simp only [e2]
  have e3 : ∀ x : ℝ, ((axisParents (g.nodeIjk n).2.1).map fun y => y.2 * f x (2 * (y.1 : ℝ)) (g.nodeIjk n).2.2).sum =
      f x (g.nodeIjk n).2.1 (g.nodeIjk n).2.2 :=
    fun x => axis_sum _ (fun y => f x y (g.nodeIjk n).2.2) (hf.2.1 x _)
  simp only [e3]
  rw [axis_sum _ (fun x => f x (g.nodeIjk n).2.1 (g.nodeIjk n).2.2) (hf.1 _ _)]
  simp [Spec.atNode]

/-- C110: the transfer of a level gives every band node eight weights, none negative, pointing at nodes of the next level's band
whenever they are not zero, and interpolating every trilinear field of the position exactly; in particular the weights sum to one.
Nothing is lost at the rim of the band or at the far side of a grid of odd size. -/
theorem C110_interpolation (L : ℕ) (g : Grid) (cells : List ℕ) (hc : ∀ e ∈ cells, e < g.numCells) (l : ℕ) (fine coarse : Level)
    (hf : (build L g cells)[l]? = some fine) (hcoarse : (build L g cells)[l + 1]? = some coarse) (n : ℕ) (hn : n ∈ fine.nodes) :
    (transferRow fine coarse n).length = 8 ∧
      (∀ q ∈ transferRow fine coarse n, 0 ≤ q.2 ∧ (q.2 ≠ 0 → q.1 < coarse.nodes.length)) ∧
      ((transferRow fine coarse n).map (·.2)).sum = 1 ∧
      ∀ f : ℝ → ℝ → ℝ → ℝ, Spec.Trilinear f →
        ((transferRow fine coarse n).map fun q => q.2 * Spec.atNode coarse.g 2 f (coarse.nodes.getD q.1 0)).sum =
          Spec.atNode fine.g 1 f n := by
  obtain ⟨g', cs, hcs, rfl, rfl⟩ := buildFrom_pair L g _ (fun e he => hc e ((mem_sortedCells cells e).mp he)) l fine coarse hf hcoarse
  refine ⟨by simp [transferRow, axisParents], fun q hq => ?_, ?_, fun f h => transferRow_interp g' cs hcs n hn f h⟩
  · simp only [transferRow, List.mem_flatMap, List.mem_map] at hq
    obtain ⟨x, hx, y, hy, z, hz, rfl⟩ := hq
    obtain ⟨h1, h2⟩ := transferEntry_spec g' cs hcs n hn hx hy hz
    refine ⟨?_, fun h => (h2 h).1⟩
    rw [h1]
    exact mul_nonneg (mul_nonneg (axisParents_nonneg hx) (axisParents_nonneg hy)) (axisParents_nonneg hz)
  · have := transferRow_interp g' cs hcs n hn (fun _ _ _ => 1)
      ⟨fun _ _ => ⟨1, 0, fun _ => by ring⟩, fun _ _ => ⟨1, 0, fun _ => by ring⟩, fun _ _ => ⟨1, 0, fun _ => by ring⟩⟩
    simpa [Spec.atNode] using this

example : (build 2 ⟨3, 1, 1⟩ [1, 2]).map (fun l => (l.g, l.nodes)) =
    [(⟨3, 1, 1⟩, [4, 5, 6, 7, 8, 9, 10, 11, 12, 13, 14, 15]), (⟨2, 1, 1⟩, [0, 1, 2, 3, 4, 5, 6, 7, 8, 9, 10, 11])] := by decide

example : Spec.Trilinear fun x y z => 1 + 2 * x - y * z + x * y * z :=
  ⟨fun y z => ⟨1 - y * z, 2 + y * z, fun x => by ring⟩, fun x z => ⟨1 + 2 * x, -z + x * z, fun y => by ring⟩,
    fun x y => ⟨1 + 2 * x, -y + x * y, fun z => by ring⟩⟩

/-! ## Restriction -/

theorem sum_ite_index (N i : ℕ) (hi : i < N) (f : ℕ → ℝ) : (∑ m ∈ Finset.range N, if i = m then f m else 0) = f i := by
  rw [Finset.sum_ite_eq, if_pos (Finset.mem_range.mpr hi)]

/-- C110: the restriction is the transpose of the prolongation, on arrays that vanish at fixed nodes. -/
theorem C110_restriction_transpose (l lc : SLevel)
    (hP : ∀ n < l.nn, ∀ q ∈ l.P n, q.2 ≠ 0 → q.1 < lc.nn) (e r : Vec) (he : mask lc e = e) (hr : mask l r = r) :
    dot l.nn (prolongTo l e) r = dot lc.nn e (restrictTo l lc r) := by
  have h1 : ∀ n c, prolongTo l e n c * r n c = ((l.P n).map fun p => p.2 * e p.1 c).sum * r n c := by
    intro n c
    unfold prolongTo mask
    by_cases h : l.free n
    · simp [h]
    · have : r n c = 0 := by rw [← hr]; simp [mask, h]
      rw [this]; ring
  have h2 : ∀ m c, e m c * restrictTo l lc r m c =
      e m c * ∑ n ∈ Finset.range l.nn, ((l.P n).map fun p => if p.1 = m then p.2 * r n c else 0).sum := by
    intro m c
    unfold restrictTo mask
    by_cases h : lc.free m
    · simp [h]
    · have : e m c = 0 := by rw [← he]; simp [mask, h]
      rw [this]; ring
  unfold dot
  simp only [h1, h2]
  rw [Finset.sum_comm, Finset.sum_comm (s := Finset.range lc.nn)]
  refine Finset.sum_congr rfl fun c _ => ?_
  simp only [Finset.mul_sum]
  rw [Finset.sum_comm]
  refine Finset.sum_congr rfl fun n hn => ?_
  rw [Finset.mem_range] at hn
  have key : ∀ ps : List (ℕ × ℝ), (∀ q ∈ ps, q.2 ≠ 0 → q.1 < lc.nn) →
      (ps.map fun p => p.2 * e p.1 c).sum * r n c =
        ∑ m ∈ Finset.range lc.nn, e m c * (ps.map fun p => if p.1 = m then p.2 * r n c else 0).sum := by
    intro ps
    induction ps with
    | nil => intro _; simp
    | cons p ps ih =>
      intro h
      simp only [List.map_cons, List.sum_cons, mul_add, Finset.sum_add_distrib, add_mul]
      rw [ih fun q hq => h q (List.mem_cons_of_mem _ hq)]
      congr 1
      by_cases hw : p.2 = 0
      · simp [hw]
      · have hp := h p List.mem_cons_self hw
        have : ∀ m, e m c * (if p.1 = m then p.2 * r n c else 0) = if p.1 = m then e m c * (p.2 * r n c) else 0 := by
          intro m; split_ifs <;> ring
        simp only [this]
        rw [sum_ite_index lc.nn p.1 hp fun m => e m c * (p.2 * r n c)]
        ring
  exact key (l.P n) (hP n hn)

/-- C110: the arrays made from consecutive levels, padded to any bucket, meet the hypothesis of the transpose. -/
theorem C110_transfer_in_range (L : ℕ) (g : Grid) (cells : List ℕ) (hc : ∀ e ∈ cells, e < g.numCells) (l : ℕ) (fine coarse : Level)
    (hf : (build L g cells)[l]? = some fine) (hcoarse : (build L g cells)[l + 1]? = some coarse) (pred : FixedPred)
    (next : Option Level) (E Ec : List ℝ) (bucket : ℕ) (hb : 1 ≤ bucket) (n : ℕ) :
    ∀ q ∈ ((toSLevel pred fine (some coarse) E).pad bucket).P n, q.2 ≠ 0 → q.1 < ((toSLevel pred coarse next Ec).pad bucket).nn := by
  intro q hq hw
  simp only [SLevel.pad, toSLevel] at hq ⊢
  have hcap : coarse.nodes.length ≤ cap coarse.nodes.length bucket := by
    unfold cap
    have h1 := Nat.div_add_mod (max 1 coarse.nodes.length + bucket - 1) bucket
    have h2 := Nat.mod_lt (max 1 coarse.nodes.length + bucket - 1) (show 0 < bucket by omega)
    rw [Nat.mul_comm] at h1
    have := le_max_right 1 coarse.nodes.length
    omega
  split_ifs at hq with h
  · have hn : fine.nodes.getD n 0 ∈ fine.nodes := by
      rw [List.getD_eq_getElem _ _ h]; exact List.getElem_mem h
    exact lt_of_lt_of_le (((C110_interpolation L g cells hc l fine coarse hf hcoarse _ hn).2.1 q hq).2 hw) hcap
  · rw [List.mem_replicate] at hq
    exact absurd (by rw [hq.2]) hw

end Verif.Props
