import Verif.Model.Copv
import Verif.Props.Sdf
import Verif.Props.Layered

/-!
# C101-C103: double-wall pressure vessels
-/

namespace Verif.Props

open Verif.Model

noncomputable section

variable {g : CopvGeom}

/-- A sensible vessel: positive lengths, a polar opening smaller than the tank, at least three columns and one row of cylinder
elements. -/
structure CopvOk (g : CopvGeom) : Prop where
  a : 0 < g.a
  shellT : 0 < g.shellT
  gap : 0 < g.gap
  cylLen : 0 < g.cylLen
  polar : 0 < g.polarRadius
  polar_lt : g.polarRadius < g.a
  columns : 3 ≤ g.nCircum
  rows : 1 ≤ g.nMeridCyl
  axis : g.axis = ![0, 0, 1]

/-- Latitude of meridian row `i`: zero on the cylinder. -/
def latOf (g : CopvGeom) (i : ℕ) : ℝ := Real.arccos (g.polarRadius / g.a) * ((i - g.nMeridCyl : ℕ) : ℝ) / (g.nMeridDome : ℝ)

/-- Height of the point of the axis from which row `i` is measured: it rises along the cylinder and stays at the centre of the dome. -/
def baseOf (g : CopvGeom) (i : ℕ) : ℝ := g.cylLen * ((min i g.nMeridCyl : ℕ) : ℝ) / (g.nMeridCyl : ℝ)

/-- Angle of column `j`. -/
def colAngle (g : CopvGeom) (j : ℕ) : ℝ := 2 * Real.pi * (j : ℝ) / (g.nCircum : ℝ)

/-- Offset of layer `k` from the inner surface: the inner shell, equal fill layers, the outer shell. -/
def offsetOf (g : CopvGeom) (k : ℕ) : ℝ :=
  if k = 0 then 0 else if k = g.nFill + 2 then 2 * g.shellT + g.gap
  else g.shellT + g.gap * ((k - 1 : ℕ) : ℝ) / (g.nFill : ℝ)

theorem stations_length : g.stations.length = g.nMeridCyl + g.nMeridDome + 1 := by
  simp [CopvGeom.stations]
  omega

theorem nMerid_eq : g.nMerid = g.nMeridCyl + g.nMeridDome := by
  simp [CopvGeom.nMerid, stations_length]

theorem dLayers_length : g.dLayers.length = g.nFill + 3 := by
  simp [CopvGeom.dLayers]

theorem station_get (h : 1 ≤ g.nMeridCyl) (i : ℕ) (hi : i < g.stations.length) :
    g.stations[i] = (g.a * Real.cos (latOf g i), baseOf g i + g.a * Real.sin (latOf g i), Real.cos (latOf g i), Real.sin (latOf g i)) := by
  have hl := stations_length (g := g)
  have hn : (g.nMeridCyl : ℝ) ≠ 0 := by exact_mod_cast (by omega : g.nMeridCyl ≠ 0)
  by_cases hc : i < g.nMeridCyl + 1
  · have h0 : latOf g i = 0 := by
      simp [latOf, Nat.sub_eq_zero_of_le (by omega : i ≤ g.nMeridCyl)]
    have h1 : baseOf g i = g.cylLen * (i : ℝ) / (g.nMeridCyl : ℝ) := by
      rw [baseOf, min_eq_left (by omega)]
    simp only [CopvGeom.stations]
    rw [List.getElem_append_left (by simpa using hc), List.getElem_map, List.getElem_range]
    simp [h0, h1]
  · have h1 : baseOf g i = g.cylLen := by
      rw [baseOf, min_eq_right (by omega), mul_div_cancel_right₀ _ hn]
    have h2 : i - (g.nMeridCyl + 1) + 1 = i - g.nMeridCyl := by omega
    have h3 : latOf g i = g.latitude (i - (g.nMeridCyl + 1) + 1) := by rw [h2]; rfl
    simp only [CopvGeom.stations]
    rw [List.getElem_append_right (by simpa using hc), List.getElem_map, List.getElem_range]
    simp [h1, h3]

theorem offset_get (k : ℕ) (hk : k < g.dLayers.length) : g.dLayers[k] = offsetOf g k := by
  have hl := dLayers_length (g := g)
  rcases k with _ | _ | k
  · simp [CopvGeom.dLayers, offsetOf]
  · simp [CopvGeom.dLayers, offsetOf]
  · by_cases h : k < g.nFill
    · rw [offsetOf, if_neg (by omega), if_neg (by omega)]
      simp only [CopvGeom.dLayers]
      rw [List.getElem_append_left (by simp; omega), List.getElem_append_right (by simp)]
      simp
    · have hk2 : k = g.nFill := by omega
      subst hk2
      rw [offsetOf, if_neg (by omega), if_pos rfl]
      simp only [CopvGeom.dLayers]
      rw [List.getElem_append_right (by simp)]
      simp
      ring

/-- The position of the node at row `i`, column `j`, layer `k`: on the circle of radius `(a + d) cos λ` at the angle of the column. -/
def nodePos (g : CopvGeom) (i j k : ℕ) : Fin 3 → ℝ :=
  ![(g.a + offsetOf g k) * Real.cos (latOf g i) * Real.cos (colAngle g j), (g.a + offsetOf g k) * Real.cos (latOf g i) * Real.sin (colAngle g j),
    baseOf g i + (g.a + offsetOf g k) * Real.sin (latOf g i)]

theorem colAngle_mod (hc : 0 < g.nCircum) (j : ℕ) :
    Real.cos (colAngle g (j % g.nCircum)) = Real.cos (colAngle g j) ∧ Real.sin (colAngle g (j % g.nCircum)) = Real.sin (colAngle g j) := by
  have hn : (g.nCircum : ℝ) ≠ 0 := by exact_mod_cast hc.ne'
  have h : colAngle g j = colAngle g (j % g.nCircum) + ((j / g.nCircum : ℕ) : ℝ) * (2 * Real.pi) := by
    have e : (j : ℝ) = ((j % g.nCircum : ℕ) : ℝ) + (g.nCircum : ℝ) * ((j / g.nCircum : ℕ) : ℝ) := by
      exact_mod_cast (Nat.mod_add_div j g.nCircum).symm
    unfold colAngle
    rw [e]
    field_simp
  rw [h, Real.cos_add_nat_mul_two_pi, Real.sin_add_nat_mul_two_pi]
  exact ⟨rfl, rfl⟩

theorem points_length : g.points.length = (g.nMerid + 1) * (g.nCircum * g.nLayers) := by
  unfold CopvGeom.points
  rw [flatMap_length_const _ _ (g.nCircum * g.nLayers), stations_length, nMerid_eq]
  intro s _
  rw [flatMap_length_const _ _ g.nLayers, List.length_range]
  intro j _
  rw [List.length_map, dLayers_length]
  rfl

/-- **C101** (nodes). The nodes are numbered without gaps or repetitions by row, column and layer; the column number is taken
modulo the number of columns, so that the ring closes; and each node is at the position of its row, column and layer. -/
theorem C101_nodes (hc : 0 < g.nCircum) (hr : 1 ≤ g.nMeridCyl) :
    g.points.length = (g.nMerid + 1) * g.nCircum * g.nLayers ∧
    (∀ i j k, i ≤ g.nMerid → k < g.nLayers → g.nodeId i j k < g.points.length ∧ g.points.getD (g.nodeId i j k) (fun _ => 0) = nodePos g i j k) ∧
    (∀ i j k, g.nodeId i (j + g.nCircum) k = g.nodeId i j k) ∧
    ∀ n < g.points.length, ∃ i j k, i ≤ g.nMerid ∧ j < g.nCircum ∧ k < g.nLayers ∧ g.nodeId i j k = n ∧
      ∀ i' j' k', i' ≤ g.nMerid → j' < g.nCircum → k' < g.nLayers → g.nodeId i' j' k' = n → i' = i ∧ j' = j ∧ k' = k := by
  have hl : 0 < g.nLayers := by simp [CopvGeom.nLayers]
  have hlen := points_length (g := g)
  refine ⟨by rw [hlen]; ring, fun i j k hi hk => ?_, fun i j k => by simp [CopvGeom.nodeId], fun n hn => ?_⟩
  · have hj : j % g.nCircum < g.nCircum := Nat.mod_lt _ hc
    have e : g.nodeId i j k = i * (g.nCircum * g.nLayers) + (j % g.nCircum * g.nLayers + k) := by
      simp only [CopvGeom.nodeId]
      ring
    have h1 : j % g.nCircum * g.nLayers + k < g.nCircum * g.nLayers := by
      have := Nat.mul_le_mul_right g.nLayers (Nat.succ_le_of_lt hj)
      rw [Nat.succ_mul] at this
      omega
    have hst : i < g.stations.length := by rw [stations_length, ← nMerid_eq]; omega
    constructor
    · rw [e, hlen]
      have := Nat.mul_le_mul_right (g.nCircum * g.nLayers) (Nat.succ_le_succ hi)
      rw [Nat.succ_mul] at this
      exact lt_of_lt_of_le (Nat.add_lt_add_left h1 _) this
    · have hin : ∀ s ∈ g.stations, ((List.range g.nCircum).flatMap fun j => g.dLayers.map fun d => g.position s j d).length =
          g.nCircum * g.nLayers := by
        intro s _
        rw [flatMap_length_const _ _ g.nLayers, List.length_range]
        intro j _
        rw [List.length_map, dLayers_length]
        rfl
      rw [e]
      unfold CopvGeom.points
      rw [flatMap_getD _ _ _ hin _ _ hst h1, flatMap_getD _ _ g.nLayers (by intro x _; rw [List.length_map, dLayers_length]; rfl) _ _
        (by simpa using hj) hk, List.getElem_range,
        List.getD_eq_getElem _ _ (by rw [List.length_map, dLayers_length]; exact hk), List.getElem_map, station_get hr, offset_get]
      obtain ⟨h2, h3⟩ := colAngle_mod hc j
      unfold CopvGeom.position nodePos
      rw [← h2, ← h3]
      funext t
      fin_cases t <;> simp [colAngle, -mul_eq_mul_right_iff] <;> ring
  · rw [hlen] at hn
    have hk : n % g.nLayers < g.nLayers := Nat.mod_lt _ hl
    have hj : n / g.nLayers % g.nCircum < g.nCircum := Nat.mod_lt _ hc
    have hi : n / g.nLayers / g.nCircum < g.nMerid + 1 := by
      rw [Nat.div_div_eq_div_mul, Nat.div_lt_iff_lt_mul (Nat.mul_pos hl hc), mul_comm g.nLayers]
      exact hn
    refine ⟨n / g.nLayers / g.nCircum, n / g.nLayers % g.nCircum, n % g.nLayers, by omega, hj, hk, ?_, ?_⟩
    · simp only [CopvGeom.nodeId]
      rw [Nat.mod_mod, mul_comm _ g.nCircum, Nat.div_add_mod, mul_comm _ g.nLayers, Nat.div_add_mod]
    · intro i' j' k' _ hj' hk' e
      subst e
      simp only [CopvGeom.nodeId]
      rw [Nat.mod_eq_of_lt hj']
      have e1 : ((i' * g.nCircum + j') * g.nLayers + k') / g.nLayers = i' * g.nCircum + j' := by
        rw [mul_comm, Nat.mul_add_div hl, Nat.div_eq_of_lt hk', add_zero]
      have e2 : ((i' * g.nCircum + j') * g.nLayers + k') % g.nLayers = k' := by
        rw [mul_comm, Nat.mul_add_mod, Nat.mod_eq_of_lt hk']
      rw [e1, e2]
      refine ⟨?_, ?_, rfl⟩
      · rw [mul_comm, Nat.mul_add_div hc, Nat.div_eq_of_lt hj', add_zero]
      · rw [mul_comm, Nat.mul_add_mod, Nat.mod_eq_of_lt hj']

theorem cells_length : g.cells.length = g.nMerid * (g.nCircum * g.nRadEl) := by
  unfold CopvGeom.cells
  rw [flatMap_length_const _ _ (g.nCircum * g.nRadEl), List.length_range]
  intro i _
  rw [flatMap_length_const _ _ g.nRadEl, List.length_range]
  intro j _
  simp

/-- **C101** (cells). The cells are listed by row, column and radial position. A cell joins neighbouring rows, columns and layers;
it is labelled inner shell if it is the first of the wall, outer shell if it is the last, fill otherwise, and it is on the dome if
its row is above the cylinder. -/
theorem C101_cells : g.cells.length = g.nMerid * g.nCircum * g.nRadEl ∧ g.cellZone.length = g.cells.length ∧
    g.domeCellMask.length = g.cells.length ∧
    ∀ i j ke, i < g.nMerid → j < g.nCircum → ke < g.nRadEl → (i * g.nCircum + j) * g.nRadEl + ke < g.cells.length ∧
      g.cells.getD ((i * g.nCircum + j) * g.nRadEl + ke) [] =
        [g.nodeId i j ke, g.nodeId i (j + 1) ke, g.nodeId (i + 1) (j + 1) ke, g.nodeId (i + 1) j ke,
          g.nodeId i j (ke + 1), g.nodeId i (j + 1) (ke + 1), g.nodeId (i + 1) (j + 1) (ke + 1), g.nodeId (i + 1) j (ke + 1)] ∧
      g.cellZone.getD ((i * g.nCircum + j) * g.nRadEl + ke) 0 = (if ke = 0 then 0 else if ke = g.nFill + 1 then 2 else 1) ∧
      (g.domeCellMask.getD ((i * g.nCircum + j) * g.nRadEl + ke) false = true ↔ g.nMeridCyl ≤ i) := by
  have hlen := cells_length (g := g)
  have hz : g.cellZone.length = g.nMerid * (g.nCircum * g.nRadEl) := by
    unfold CopvGeom.cellZone
    rw [flatMap_length_const _ _ (g.nCircum * g.nRadEl), List.length_range]
    intro i _
    rw [flatMap_length_const _ _ g.nRadEl, List.length_range]
    intro j _
    simp
  refine ⟨by rw [hlen]; ring, by rw [hz, hlen], by simp [CopvGeom.domeCellMask], fun i j ke hi hj hke => ?_⟩
  have e : (i * g.nCircum + j) * g.nRadEl + ke = i * (g.nCircum * g.nRadEl) + (j * g.nRadEl + ke) := by ring
  have h1 : j * g.nRadEl + ke < g.nCircum * g.nRadEl := by
    have := Nat.mul_le_mul_right g.nRadEl (Nat.succ_le_of_lt hj)
    rw [Nat.succ_mul] at this
    omega
  have h2 : i * (g.nCircum * g.nRadEl) + (j * g.nRadEl + ke) < g.cells.length := by
    rw [hlen]
    have := Nat.mul_le_mul_right (g.nCircum * g.nRadEl) (Nat.succ_le_of_lt hi)
    rw [Nat.succ_mul] at this
    exact lt_of_lt_of_le (Nat.add_lt_add_left h1 _) this
  rw [e]
  refine ⟨h2, ?_, ?_, ?_⟩
  · unfold CopvGeom.cells
    rw [flatMap_getD _ _ (g.nCircum * g.nRadEl) (by
        intro i _
        rw [flatMap_length_const _ _ g.nRadEl, List.length_range]
        intro j _
        simp) _ _ (by simpa using hi) h1, flatMap_getD _ _ g.nRadEl (by intro x _; simp) _ _ (by simpa using hj) hke,
      List.getD_eq_getElem _ _ (by simpa using hke)]
    simp [CopvGeom.cellRow]
  · unfold CopvGeom.cellZone
    rw [flatMap_getD _ _ (g.nCircum * g.nRadEl) (by
        intro i _
        rw [flatMap_length_const _ _ g.nRadEl, List.length_range]
        intro j _
        simp) _ _ (by simpa using hi) h1, flatMap_getD _ _ g.nRadEl (by intro x _; simp) _ _ (by simpa using hj) hke,
      List.getD_eq_getElem _ _ (by simpa using hke)]
    simp [CopvGeom.zoneOf, CopvGeom.nRadEl]
  · unfold CopvGeom.domeCellMask
    rw [List.getD_eq_getElem _ _ (by simpa using h2)]
    simp only [List.getElem_map, List.getElem_range, decide_eq_true_eq]
    have hpos : 0 < g.nCircum * g.nRadEl := by omega
    rw [mul_comm, Nat.mul_add_div hpos, Nat.div_eq_of_lt h1, add_zero]

/-! ## Jacobians -/

/-- A wall cell between the circles of radius `p cos` at two rows, two columns and two offsets. -/
def wallCell (p0 p1 c0 c1 s0 s1 b0 b1 ct0 ct1 st0 st1 : ℝ) : HexNodes :=
  ![![p0 * c0 * ct0, p0 * c0 * st0, b0 + p0 * s0], ![p0 * c0 * ct1, p0 * c0 * st1, b0 + p0 * s0],
    ![p0 * c1 * ct1, p0 * c1 * st1, b1 + p0 * s1], ![p0 * c1 * ct0, p0 * c1 * st0, b1 + p0 * s1],
    ![p1 * c0 * ct0, p1 * c0 * st0, b0 + p1 * s0], ![p1 * c0 * ct1, p1 * c0 * st1, b0 + p1 * s0],
    ![p1 * c1 * ct1, p1 * c1 * st1, b1 + p1 * s1], ![p1 * c1 * ct0, p1 * c1 * st0, b1 + p1 * s1]]

set_option maxHeartbeats 1000000 in
theorem wallCell_det (p0 p1 c0 c1 s0 s1 b0 b1 ct0 ct1 st0 st1 x y z : ℝ) :
    (hexJac (wallCell p0 p1 c0 c1 s0 s1 b0 b1 ct0 ct1 st0 st1) (hexGrad x y z)).det =
      (p0 + z * (p1 - p0)) * (c0 + y * (c1 - c0)) * (p1 - p0) * (ct0 * st1 - st0 * ct1) *
        ((b1 - b0) * (c0 + y * (c1 - c0)) + (p0 + z * (p1 - p0)) * (s1 * c0 - c1 * s0)) := by
  have hJ : hexJac (wallCell p0 p1 c0 c1 s0 s1 b0 b1 ct0 ct1 st0 st1) (hexGrad x y z) =
      !![(p0 + z * (p1 - p0)) * (c0 + y * (c1 - c0)) * (ct1 - ct0), (p0 + z * (p1 - p0)) * (c1 - c0) * (ct0 + x * (ct1 - ct0)),
          (p1 - p0) * (c0 + y * (c1 - c0)) * (ct0 + x * (ct1 - ct0));
        (p0 + z * (p1 - p0)) * (c0 + y * (c1 - c0)) * (st1 - st0), (p0 + z * (p1 - p0)) * (c1 - c0) * (st0 + x * (st1 - st0)),
          (p1 - p0) * (c0 + y * (c1 - c0)) * (st0 + x * (st1 - st0));
        0, (b1 - b0) + (p0 + z * (p1 - p0)) * (s1 - s0), (p1 - p0) * (s0 + y * (s1 - s0))] := by
    ext i I
    unfold hexJac
    fin_cases i <;> fin_cases I <;>
      simp [Fin.sum_univ_eight, wallCell, hexGrad, shapeGradAt, shapeValuesAt, EleType.reOrder, basixValues] <;> ring
  rw [hJ, Matrix.det_fin_three]
  simp
  ring

theorem cellNodes_eq (hr : 1 ≤ g.nMeridCyl) {i j ke : ℕ} (hi : i < g.nMerid) (hj : j < g.nCircum) (hke : ke < g.nRadEl) :
    g.cellNodes ((i * g.nCircum + j) * g.nRadEl + ke) =
      wallCell (g.a + offsetOf g ke) (g.a + offsetOf g (ke + 1)) (Real.cos (latOf g i)) (Real.cos (latOf g (i + 1)))
        (Real.sin (latOf g i)) (Real.sin (latOf g (i + 1))) (baseOf g i) (baseOf g (i + 1)) (Real.cos (colAngle g j))
        (Real.cos (colAngle g (j + 1))) (Real.sin (colAngle g j)) (Real.sin (colAngle g (j + 1))) := by
  obtain ⟨_, hrow, _, _⟩ := C101_cells.2.2.2 i j ke hi hj hke
  have hpos := fun i j k hi hk => (C101_nodes (by omega) hr).2.1 i j k hi hk |>.2
  have hk0 : ke < g.nLayers := by simp only [CopvGeom.nLayers, CopvGeom.nRadEl] at *; omega
  have hk1 : ke + 1 < g.nLayers := by simp only [CopvGeom.nLayers, CopvGeom.nRadEl] at *; omega
  funext a
  unfold CopvGeom.cellNodes
  rw [hrow]
  fin_cases a
  · exact hpos i j ke hi.le hk0
  · exact hpos i (j + 1) ke hi.le hk0
  · exact hpos (i + 1) (j + 1) ke hi hk0
  · exact hpos (i + 1) j ke hi hk0
  · exact hpos i j (ke + 1) hi.le hk1
  · exact hpos i (j + 1) (ke + 1) hi.le hk1
  · exact hpos (i + 1) (j + 1) (ke + 1) hi hk1
  · exact hpos (i + 1) j (ke + 1) hi hk1

theorem offset_step (h : CopvOk g) {k : ℕ} (hk : k < g.nRadEl) : offsetOf g (k + 1) - offsetOf g k =
    if k = 0 then g.shellT else if k = g.nFill + 1 then g.shellT + (if g.nFill = 0 then g.gap else 0) else g.gap / (g.nFill : ℝ) := by
  unfold CopvGeom.nRadEl at hk
  rcases k with _ | k
  · simp [offsetOf]
  · by_cases hf : g.nFill = 0
    · have : k = 0 := by omega
      subst this
      simp [offsetOf, hf]
      ring
    · have hf' : (g.nFill : ℝ) ≠ 0 := by exact_mod_cast hf
      by_cases hl : k = g.nFill
      · subst hl
        simp [offsetOf, hf]
        field_simp
        ring
      · have e1 : ¬ k + 1 = g.nFill + 2 := by omega
        have e2 : ¬ k = g.nFill + 1 := by omega
        simp [offsetOf, hl, e2]
        field_simp
        ring

theorem offset_step_pos (h : CopvOk g) {k : ℕ} (hk : k < g.nRadEl) : 0 < offsetOf g (k + 1) - offsetOf g k := by
  rw [offset_step h hk]
  have h1 := h.shellT
  have h2 := h.gap
  split
  · exact h1
  · split
    · split <;> linarith
    · have : 0 < (g.nFill : ℝ) := by
        have : 0 < g.nFill := by
          unfold CopvGeom.nRadEl at hk
          omega
        exact_mod_cast this
      positivity

theorem offset_mono (h : CopvOk g) {k l : ℕ} (hkl : k ≤ l) (hl : l < g.nLayers) : offsetOf g k ≤ offsetOf g l := by
  induction l with
  | zero =>
    have : k = 0 := by omega
    rw [this]
  | succ l ih =>
    rcases Nat.lt_or_ge k (l + 1) with h1 | h1
    · have := ih (by omega) (by omega)
      have h2 := offset_step_pos h (k := l) (by simp only [CopvGeom.nLayers, CopvGeom.nRadEl] at *; omega)
      linarith
    · have : k = l + 1 := by omega
      rw [this]

theorem offset_nonneg (h : CopvOk g) {k : ℕ} (hk : k < g.nLayers) : 0 ≤ offsetOf g k := by
  have := offset_mono h (Nat.zero_le k) hk
  simpa [offsetOf] using this

theorem latMax_pos (h : CopvOk g) : 0 < Real.arccos (g.polarRadius / g.a) ∧ Real.arccos (g.polarRadius / g.a) < Real.pi / 2 :=
  ⟨Real.arccos_pos.2 ((div_lt_one h.a).2 h.polar_lt), Real.arccos_lt_pi_div_two.2 (div_pos h.polar h.a)⟩

theorem lat_range (h : CopvOk g) {i : ℕ} (hi : i ≤ g.nMerid) : 0 ≤ latOf g i ∧ latOf g i < Real.pi / 2 := by
  obtain ⟨h1, h2⟩ := latMax_pos h
  rw [nMerid_eq] at hi
  unfold latOf
  have hm : ((i - g.nMeridCyl : ℕ) : ℝ) ≤ (g.nMeridDome : ℝ) := by exact_mod_cast (by omega : i - g.nMeridCyl ≤ g.nMeridDome)
  constructor
  · positivity
  · refine lt_of_le_of_lt ?_ h2
    rw [mul_div_assoc]
    refine mul_le_of_le_one_right h1.le ?_
    exact div_le_one_of_le₀ hm (by positivity)

theorem lat_cos_pos (h : CopvOk g) {i : ℕ} (hi : i ≤ g.nMerid) : 0 < Real.cos (latOf g i) := by
  obtain ⟨h1, h2⟩ := lat_range h hi
  exact Real.cos_pos_of_mem_Ioo ⟨by linarith [Real.pi_pos], h2⟩

theorem col_sin_pos (h : CopvOk g) (j : ℕ) :
    0 < Real.cos (colAngle g j) * Real.sin (colAngle g (j + 1)) - Real.sin (colAngle g j) * Real.cos (colAngle g (j + 1)) := by
  have hc : (3 : ℝ) ≤ (g.nCircum : ℝ) := by exact_mod_cast h.columns
  have e : Real.cos (colAngle g j) * Real.sin (colAngle g (j + 1)) - Real.sin (colAngle g j) * Real.cos (colAngle g (j + 1)) =
      Real.sin (2 * Real.pi / (g.nCircum : ℝ)) := by
    have : 2 * Real.pi / (g.nCircum : ℝ) = colAngle g (j + 1) - colAngle g j := by
      unfold colAngle
      push_cast
      field_simp
      ring
    rw [this, Real.sin_sub]
    ring
  rw [e]
  apply Real.sin_pos_of_pos_of_lt_pi
  · have := Real.pi_pos
    positivity
  · rw [div_lt_iff₀ (by linarith)]
    nlinarith [Real.pi_pos]

/-- What a row contributes to the determinant: the rise on the cylinder, the turn on the dome. -/
theorem row_pos (h : CopvOk g) {i : ℕ} (hi : i < g.nMerid) (C p : ℝ) (hC : 0 < C) (hp : 0 < p) :
    0 < (baseOf g (i + 1) - baseOf g i) * C +
      p * (Real.sin (latOf g (i + 1)) * Real.cos (latOf g i) - Real.cos (latOf g (i + 1)) * Real.sin (latOf g i)) := by
  have hn : (0 : ℝ) < (g.nMeridCyl : ℝ) := by exact_mod_cast h.rows
  rw [nMerid_eq] at hi
  by_cases hc : i < g.nMeridCyl
  · have h0 : latOf g i = 0 := by simp [latOf, Nat.sub_eq_zero_of_le hc.le]
    have h1 : latOf g (i + 1) = 0 := by simp [latOf, Nat.sub_eq_zero_of_le (Nat.succ_le_of_lt hc)]
    have hb : baseOf g (i + 1) - baseOf g i = g.cylLen / (g.nMeridCyl : ℝ) := by
      unfold baseOf
      rw [min_eq_left (Nat.succ_le_of_lt hc), min_eq_left hc.le]
      push_cast
      field_simp
      ring
    rw [h0, h1, hb]
    have := h.cylLen
    simp
    positivity
  · have hb : baseOf g (i + 1) - baseOf g i = 0 := by
      unfold baseOf
      rw [min_eq_right (by omega), min_eq_right (by omega), sub_self]
    have hd : (0 : ℝ) < (g.nMeridDome : ℝ) := by exact_mod_cast (by omega : 0 < g.nMeridDome)
    have hd1 : (1 : ℝ) ≤ (g.nMeridDome : ℝ) := by exact_mod_cast (by omega : 1 ≤ g.nMeridDome)
    obtain ⟨m1, m2⟩ := latMax_pos h
    have hs : latOf g (i + 1) - latOf g i = Real.arccos (g.polarRadius / g.a) / (g.nMeridDome : ℝ) := by
      unfold latOf
      rw [show i + 1 - g.nMeridCyl = (i - g.nMeridCyl) + 1 by omega]
      push_cast
      field_simp
      ring
    rw [hb, ← Real.sin_sub, hs, zero_mul, zero_add]
    apply mul_pos hp
    apply Real.sin_pos_of_pos_of_lt_pi
    · positivity
    · refine lt_of_le_of_lt (div_le_self m1.le hd1) (by linarith)

/-- **C101** (valid cells). In every cell the Jacobian determinant is positive at every point of the cell, not only at the centre, so
that no cell is inverted or degenerate. -/
theorem C101_valid_cells (h : CopvOk g) {i j ke : ℕ} (hi : i < g.nMerid) (hj : j < g.nCircum) (hke : ke < g.nRadEl) (x y z : ℝ)
    (hy : 0 ≤ y ∧ y ≤ 1) (hz : 0 ≤ z ∧ z ≤ 1) :
    0 < (hexJac (g.cellNodes ((i * g.nCircum + j) * g.nRadEl + ke)) (hexGrad x y z)).det := by
  rw [cellNodes_eq h.rows hi hj hke, wallCell_det]
  have hk0 : ke < g.nLayers := by simp only [CopvGeom.nLayers, CopvGeom.nRadEl] at *; omega
  have h1 := offset_step_pos h hke
  have h2 := offset_nonneg h hk0
  have ha := h.a
  have c0 := lat_cos_pos h hi.le
  have c1 := lat_cos_pos h (Nat.succ_le_of_lt hi)
  have hp : 0 < (g.a + offsetOf g ke) + z * ((g.a + offsetOf g (ke + 1)) - (g.a + offsetOf g ke)) := by
    have : 0 ≤ z * ((g.a + offsetOf g (ke + 1)) - (g.a + offsetOf g ke)) := mul_nonneg hz.1 (by linarith)
    linarith
  have hC : 0 < Real.cos (latOf g i) + y * (Real.cos (latOf g (i + 1)) - Real.cos (latOf g i)) := by
    rcases hy with ⟨y0, y1⟩
    rcases lt_or_eq_of_le y1 with y1 | y1
    · nlinarith [mul_nonneg y0 c1.le, mul_pos (sub_pos.2 y1) c0]
    · rw [y1]
      linarith
  have hd : 0 < (g.a + offsetOf g (ke + 1)) - (g.a + offsetOf g ke) := by linarith
  exact mul_pos (mul_pos (mul_pos (mul_pos hp hC) hd) (col_sin_pos h j)) (row_pos h hi _ _ hC hp)

/-- Every cell number comes from a row, a column and a radial position. -/
theorem cell_index {e : ℕ} (he : e < g.cells.length) :
    ∃ i j ke, i < g.nMerid ∧ j < g.nCircum ∧ ke < g.nRadEl ∧ e = (i * g.nCircum + j) * g.nRadEl + ke := by
  rw [cells_length] at he
  have hr : 0 < g.nRadEl := by simp [CopvGeom.nRadEl]
  have hc : 0 < g.nCircum := by
    rcases Nat.eq_zero_or_pos g.nCircum with h | h
    · simp [h] at he
    · exact h
  refine ⟨e / g.nRadEl / g.nCircum, e / g.nRadEl % g.nCircum, e % g.nRadEl, ?_, Nat.mod_lt _ hc, Nat.mod_lt _ hr, ?_⟩
  · rw [Nat.div_div_eq_div_mul, Nat.div_lt_iff_lt_mul (Nat.mul_pos hr hc), mul_comm g.nRadEl]
    exact he
  · rw [mul_comm _ g.nCircum, Nat.div_add_mod, mul_comm _ g.nRadEl, Nat.div_add_mod]

/-- **C101** (construction). A sensible vessel is always built, with or without the check. -/
theorem C101_built (h : CopvOk g) (check : Bool) : g.createMesh check = .ok g := by
  unfold CopvGeom.createMesh CopvGeom.buildMeridian
  have hr := h.rows
  rw [if_neg (by
    rintro (h1 | h1)
    · omega
    · exact h.a.ne' h1)]
  simp only
  have hax : g.axisIsZ := by
    unfold CopvGeom.axisIsZ
    rw [h.axis]
    simp
    norm_num
  rw [if_neg (not_not.2 hax), if_neg]
  rintro ⟨_, h2⟩
  apply h2
  refine ⟨Or.inr ⟨?_, ?_⟩, fun e he => ?_⟩
  · have := div_pos h.polar h.a
    linarith
  · exact ((div_lt_one h.a).2 h.polar_lt).le
  · obtain ⟨i, j, ke, hi, hj, hke, rfl⟩ := cell_index he
    exact C101_valid_cells h hi hj hke _ _ _ ⟨by norm_num, by norm_num⟩ ⟨by norm_num, by norm_num⟩

/-- The default vessel (`/repo/feax/mechanics/copv.py:83-92`). -/
def exVessel : CopvGeom := ⟨96, 4, 16, 150, 25, 42, 24, 4, 4, ![0, 0, 1]⟩

theorem exVessel_ok : CopvOk exVessel := by
  constructor <;> simp [exVessel] <;> norm_num

example : exVessel.createMesh true = .ok exVessel := C101_built exVessel_ok true

/-- **C101** (too few columns). With one or two columns the cells are flat, and the check refuses the mesh. -/
theorem C101_flat_refused (hr : 1 ≤ g.nMeridCyl) (ha : g.a ≠ 0) (hax : g.axisIsZ) (hc : g.nCircum = 1 ∨ g.nCircum = 2) :
    g.createMesh true = .error .valueError := by
  unfold CopvGeom.createMesh CopvGeom.buildMeridian
  rw [if_neg (by
    rintro (h1 | h1)
    · omega
    · exact ha h1)]
  simp only
  rw [if_neg (not_not.2 hax), if_pos]
  refine ⟨rfl, fun h => ?_⟩
  have hm : 0 < g.nMerid := by rw [nMerid_eq]; omega
  have hk : 0 < g.nRadEl := by simp [CopvGeom.nRadEl]
  have h1 := h.2 _ (C101_cells.2.2.2 0 0 0 hm (by omega) hk).1
  rw [CopvGeom.centreDet, cellNodes_eq hr hm (by omega) hk, wallCell_det] at h1
  have h2 : Real.sin (colAngle g (0 + 1)) = 0 := by
    unfold colAngle
    rcases hc with hc | hc <;> rw [hc]
    · simp
    · rw [show 2 * Real.pi * ((0 + 1 : ℕ) : ℝ) / ((2 : ℕ) : ℝ) = Real.pi by push_cast; ring]
      exact Real.sin_pi
  rw [h2] at h1
  simp [colAngle] at h1

example : ({exVessel with nCircum := 2}).createMesh true = .error .valueError :=
  C101_flat_refused (by simp [exVessel]) (by simp [exVessel]) (by simp [CopvGeom.axisIsZ, exVessel]; norm_num) (Or.inr rfl)

/-! ## Surfaces -/

/-- Distance from the part of the axis up to the centre of the dome. -/
def wallDist (g : CopvGeom) (x : Fin 3 → ℝ) : ℝ := Real.sqrt (x 0 ^ 2 + x 1 ^ 2 + max 0 (x 2 - g.cylLen) ^ 2)

theorem wallDist_lipschitz (x y : Fin 3 → ℝ) : |wallDist g x - wallDist g y| ≤ Real.sqrt (∑ k, (x k - y k) ^ 2) := by
  let f : (Fin 3 → ℝ) → EuclideanSpace ℝ (Fin 3) := fun x => WithLp.toLp 2 ![x 0, x 1, max 0 (x 2 - g.cylLen)]
  have e : ∀ x, wallDist g x = ‖f x‖ := by
    intro x
    rw [EuclideanSpace.norm_eq]
    simp [f, Fin.sum_univ_three, wallDist]
  rw [e, e]
  refine (abs_norm_sub_norm_le _ _).trans ?_
  rw [EuclideanSpace.norm_eq]
  apply Real.sqrt_le_sqrt
  have h3 : (max 0 (x 2 - g.cylLen) - max 0 (y 2 - g.cylLen)) ^ 2 ≤ (x 2 - y 2) ^ 2 := by
    rw [sq_le_sq]
    have := abs_max_sub_max_le_abs (x 2 - g.cylLen) (y 2 - g.cylLen) 0
    rw [max_comm 0, max_comm 0]
    simpa using this
  simp [f, Fin.sum_univ_three]
  linarith

theorem lat_sin_nonneg (h : CopvOk g) {i : ℕ} (hi : i ≤ g.nMerid) : 0 ≤ Real.sin (latOf g i) := by
  obtain ⟨h1, h2⟩ := lat_range h hi
  exact Real.sin_nonneg_of_nonneg_of_le_pi h1 (by linarith [Real.pi_pos])

/-- **C101** (thickness). Every layer is at a constant distance from the axis of the cylinder and the centre of the dome: layer `k` at
the radius of the tank plus its offset. The wall follows the mould line. -/
theorem C101_layer_distance (h : CopvOk g) {i j k : ℕ} (hi : i ≤ g.nMerid) (hk : k < g.nLayers) :
    wallDist g (g.points.getD (g.nodeId i j k) fun _ => 0) = g.a + offsetOf g k := by
  have hr := h.rows
  have hcol := h.columns
  rw [((C101_nodes (by omega) hr).2.1 i j k hi hk).2]
  have hp : 0 < g.a + offsetOf g k := by linarith [h.a, offset_nonneg h hk]
  have hn : (0 : ℝ) < (g.nMeridCyl : ℝ) := by exact_mod_cast h.rows
  have hcs := Real.cos_sq_add_sin_sq (latOf g i)
  have hct := Real.cos_sq_add_sin_sq (colAngle g j)
  have hmax : max 0 (baseOf g i + (g.a + offsetOf g k) * Real.sin (latOf g i) - g.cylLen) = (g.a + offsetOf g k) * Real.sin (latOf g i) := by
    by_cases hc : i ≤ g.nMeridCyl
    · have h0 : latOf g i = 0 := by simp [latOf, Nat.sub_eq_zero_of_le hc]
      have hb : baseOf g i ≤ g.cylLen := by
        unfold baseOf
        rw [min_eq_left hc, div_le_iff₀ hn]
        exact mul_le_mul_of_nonneg_left (by exact_mod_cast hc) h.cylLen.le
      rw [h0]
      simp
      exact hb
    · have hb : baseOf g i = g.cylLen := by
        unfold baseOf
        rw [min_eq_right (by omega), mul_div_cancel_right₀ _ hn.ne']
      rw [hb, add_sub_cancel_left, max_eq_right (mul_nonneg hp.le (lat_sin_nonneg h hi))]
  have e : nodePos g i j k 0 ^ 2 + nodePos g i j k 1 ^ 2 + max 0 (nodePos g i j k 2 - g.cylLen) ^ 2 = (g.a + offsetOf g k) ^ 2 := by
    simp only [nodePos, Matrix.cons_val_zero, Matrix.cons_val_one, Matrix.cons_val, hmax]
    linear_combination (g.a + offsetOf g k) ^ 2 * Real.cos (latOf g i) ^ 2 * hct + (g.a + offsetOf g k) ^ 2 * hcs
  rw [wallDist, e, Real.sqrt_sq hp.le]

/-- **C101** (layers). The first and last layers of the wall have the thickness of the shells; the layers of fill between them share
the gap equally. Without fill layers the outer shell takes the gap. -/
theorem C101_layers (h : CopvOk g) {k : ℕ} (hk : k < g.nRadEl) : offsetOf g 0 = 0 ∧ offsetOf g (g.nFill + 2) = 2 * g.shellT + g.gap ∧
    0 < offsetOf g (k + 1) - offsetOf g k ∧ offsetOf g (k + 1) - offsetOf g k =
      if k = 0 then g.shellT else if k = g.nFill + 1 then g.shellT + (if g.nFill = 0 then g.gap else 0) else g.gap / (g.nFill : ℝ) :=
  ⟨by simp [offsetOf], by simp [offsetOf], offset_step_pos h hk, offset_step h hk⟩

theorem offset_strict (h : CopvOk g) {k l : ℕ} (hkl : k < l) (hl : l < g.nLayers) : offsetOf g k < offsetOf g l := by
  have h1 := offset_step_pos h (k := k) (by simp only [CopvGeom.nLayers, CopvGeom.nRadEl] at *; omega)
  have h2 := offset_mono h (Nat.succ_le_of_lt hkl) hl
  linarith

theorem height_strict (h : CopvOk g) {i i' : ℕ} (hii : i < i') (hi : i' ≤ g.nMerid) {p : ℝ} (hp : 0 < p) :
    baseOf g i + p * Real.sin (latOf g i) < baseOf g i' + p * Real.sin (latOf g i') := by
  have step : ∀ i, i < g.nMerid → baseOf g i + p * Real.sin (latOf g i) < baseOf g (i + 1) + p * Real.sin (latOf g (i + 1)) := by
    intro i hi
    have hn : (0 : ℝ) < (g.nMeridCyl : ℝ) := by exact_mod_cast h.rows
    by_cases hc : i < g.nMeridCyl
    · have h0 : latOf g i = 0 := by simp [latOf, Nat.sub_eq_zero_of_le hc.le]
      have h1 : latOf g (i + 1) = 0 := by simp [latOf, Nat.sub_eq_zero_of_le (Nat.succ_le_of_lt hc)]
      rw [h0, h1]
      unfold baseOf
      rw [min_eq_left (Nat.succ_le_of_lt hc), min_eq_left hc.le]
      have := h.cylLen
      push_cast
      simp only [Real.sin_zero, mul_zero, add_zero]
      exact div_lt_div_of_pos_right (mul_lt_mul_of_pos_left (by linarith) this) hn
    · have hb : baseOf g (i + 1) = baseOf g i := by
        unfold baseOf
        rw [min_eq_right (by omega), min_eq_right (by omega)]
      rw [hb]
      have l1 := lat_range h hi.le
      have l2 := lat_range h (Nat.succ_le_of_lt hi)
      have hlt : latOf g i < latOf g (i + 1) := by
        rw [nMerid_eq] at hi
        unfold latOf
        have hd : (0 : ℝ) < (g.nMeridDome : ℝ) := by exact_mod_cast (by omega : 0 < g.nMeridDome)
        exact div_lt_div_of_pos_right (mul_lt_mul_of_pos_left (by exact_mod_cast (by omega)) (latMax_pos h).1) hd
      have := Real.sin_lt_sin_of_lt_of_le_pi_div_two (by linarith [l1.1, Real.pi_pos]) l2.2.le hlt
      have := mul_lt_mul_of_pos_left this hp
      linarith
  induction i' with
  | zero => omega
  | succ i' ih =>
    rcases Nat.lt_or_ge i i' with h1 | h1
    · exact (ih h1 (by omega)).trans (step i' (by omega))
    · have : i = i' := by omega
      subst this
      exact step i (by omega)

theorem col_inj {j j' : ℕ} (hj : j < g.nCircum) (hj' : j' < g.nCircum) (hcos : Real.cos (colAngle g j) = Real.cos (colAngle g j'))
    (hsin : Real.sin (colAngle g j) = Real.sin (colAngle g j')) : j = j' := by
  have hn : (0 : ℝ) < (g.nCircum : ℝ) := by exact_mod_cast (by omega : 0 < g.nCircum)
  have h1 : Real.cos (colAngle g j - colAngle g j') = 1 := by
    rw [Real.cos_sub, hcos, hsin]
    nlinarith [Real.cos_sq_add_sin_sq (colAngle g j')]
  obtain ⟨m, hm⟩ := (Real.cos_eq_one_iff _).1 h1
  have hpi := Real.pi_pos
  have e : (m : ℝ) * (g.nCircum : ℝ) = (j : ℝ) - (j' : ℝ) := by
    unfold colAngle at hm
    field_simp at hm
    nlinarith
  have e2 : m * (g.nCircum : ℤ) = (j : ℤ) - (j' : ℤ) := by exact_mod_cast e
  have : m = 0 := by
    by_contra hne
    rcases lt_or_gt_of_ne hne with hneg | hpos
    · have := Int.mul_le_mul_of_nonneg_right (show m ≤ -1 by omega) (show (0 : ℤ) ≤ g.nCircum by omega)
      omega
    · have := Int.mul_le_mul_of_nonneg_right (show 1 ≤ m by omega) (show (0 : ℤ) ≤ g.nCircum by omega)
      omega
  rw [this] at e2
  omega

/-- **C101** (no two nodes coincide). -/
theorem C101_nodes_distinct (h : CopvOk g) {m n : ℕ} (hm : m < g.points.length) (hn : n < g.points.length)
    (e : g.points.getD m (fun _ => 0) = g.points.getD n fun _ => 0) : m = n := by
  have hcol := h.columns
  have hN := C101_nodes (g := g) (by omega) h.rows
  obtain ⟨i, j, k, hi, hj, hk, rfl, _⟩ := hN.2.2.2 m hm
  obtain ⟨i', j', k', hi', hj', hk', rfl, _⟩ := hN.2.2.2 n hn
  have d1 := C101_layer_distance h (j := j) hi hk
  have d2 := C101_layer_distance h (j := j') hi' hk'
  have hkk : k = k' := by
    rw [e, d2] at d1
    rcases lt_trichotomy k k' with hlt | heq | hlt
    · have := offset_strict h hlt hk'
      linarith
    · exact heq
    · have := offset_strict h hlt hk
      linarith
  subst hkk
  have hp : 0 < g.a + offsetOf g k := by linarith [h.a, offset_nonneg h hk]
  rw [(hN.2.1 i j k hi hk).2, (hN.2.1 i' j' k hi' hk').2] at e
  have hii : i = i' := by
    have e2 := congrFun e 2
    simp only [nodePos, Matrix.cons_val] at e2
    rcases lt_trichotomy i i' with hlt | heq | hlt
    · have := height_strict h hlt hi' hp
      linarith
    · exact heq
    · have := height_strict h hlt hi hp
      linarith
  subst hii
  have hq : (g.a + offsetOf g k) * Real.cos (latOf g i) ≠ 0 := (mul_pos hp (lat_cos_pos h hi)).ne'
  have e0 := congrFun e 0
  have e1 := congrFun e 1
  simp only [nodePos, Matrix.cons_val_zero, Matrix.cons_val_one] at e0 e1
  rw [col_inj hj hj' (mul_left_cancel₀ hq e0) (mul_left_cancel₀ hq e1)]

theorem mem_surface {n k : ℕ} : (n ∈ (List.range (g.nMerid + 1)).flatMap fun i => (List.range g.nCircum).map fun j => g.nodeId i j k) ↔
    ∃ i j, i ≤ g.nMerid ∧ j < g.nCircum ∧ g.nodeId i j k = n := by
  simp only [List.mem_flatMap, List.mem_map, List.mem_range, Nat.lt_succ_iff]
  constructor
  · rintro ⟨i, hi, j, hj, e⟩
    exact ⟨i, j, hi, hj, e⟩
  · rintro ⟨i, j, hi, hj, e⟩
    exact ⟨i, hi, j, hj, e⟩

/-- **C101** (surfaces). With a tolerance below the thickness of the shells, the outer (inner) location function selects exactly the
nodes of the last (first) layer of the wall. -/
theorem C101_surfaces (h : CopvOk g) {i j k : ℕ} (hi : i ≤ g.nMerid) (hk : k < g.nLayers) {tol : ℝ} (h0 : 0 < tol)
    (ht : tol ≤ g.shellT) :
    (g.nearNodes g.outerSurfaceNodeIds tol (nodePos g i j k) ↔ k = g.nFill + 2) ∧
    (g.nearNodes g.innerSurfaceNodeIds tol (nodePos g i j k) ↔ k = 0) := by
  have hcol := h.columns
  have hN := C101_nodes (g := g) (by omega) h.rows
  have key : ∀ k₀, k₀ < g.nLayers → (k ≠ k₀ → g.shellT ≤ |offsetOf g k₀ - offsetOf g k|) →
      (g.nearNodes ((List.range (g.nMerid + 1)).flatMap fun i => (List.range g.nCircum).map fun j => g.nodeId i j k₀) tol (nodePos g i j k) ↔
        k = k₀) := by
    intro k₀ hk₀ hsep
    constructor
    · rintro ⟨n, hn, hd⟩
      obtain ⟨i', j', hi', hj', rfl⟩ := mem_surface.1 hn
      by_contra hne
      have h1 := wallDist_lipschitz (g := g) (g.points.getD (g.nodeId i' j' k₀) fun _ => 0) (nodePos g i j k)
      have h2 := C101_layer_distance h (j := j) hi hk
      rw [(hN.2.1 i j k hi hk).2] at h2
      rw [C101_layer_distance h hi' hk₀, h2, add_sub_add_left_eq_sub] at h1
      have := hsep hne
      linarith
    · rintro rfl
      refine ⟨g.nodeId i (j % g.nCircum) k, mem_surface.2 ⟨i, j % g.nCircum, hi, Nat.mod_lt _ (by omega), rfl⟩, ?_⟩
      have : g.nodeId i (j % g.nCircum) k = g.nodeId i j k := by simp [CopvGeom.nodeId]
      rw [this, (hN.2.1 i j k hi hk).2]
      simpa using h0
  constructor
  · have e : g.nLayers - 1 = g.nFill + 2 := by simp [CopvGeom.nLayers]
    unfold CopvGeom.outerSurfaceNodeIds
    rw [e]
    apply key _ (by simp [CopvGeom.nLayers])
    intro hne
    have hk' : k ≤ g.nFill + 1 := by unfold CopvGeom.nLayers at hk; omega
    have h1 := offset_mono h hk' (by simp [CopvGeom.nLayers])
    have h2 := offset_step h (k := g.nFill + 1) (by simp [CopvGeom.nRadEl])
    rw [if_neg (by omega), if_pos rfl] at h2
    have h3 : g.shellT ≤ offsetOf g (g.nFill + 2) - offsetOf g (g.nFill + 1) := by
      rw [h2]
      have := h.gap
      split <;> linarith
    exact le_trans (by linarith) (le_abs_self _)
  · apply key 0 (by simp [CopvGeom.nLayers])
    intro hne
    have h1 := offset_mono h (show 1 ≤ k by omega) hk
    have h2 := offset_step h (k := 0) (by simp [CopvGeom.nRadEl])
    rw [if_pos rfl] at h2
    rw [abs_sub_comm]
    exact le_trans (by linarith) (le_abs_self _)

example : exVessel.nearNodes exVessel.outerSurfaceNodeIds (1 / 10 ^ 4) (nodePos exVessel 27 5 6) :=
  ((C101_surfaces exVessel_ok (by simp [nMerid_eq, exVessel]) (by simp [CopvGeom.nLayers, exVessel]) (by norm_num)
    (by simp [exVessel]; norm_num)).1).2 rfl

theorem abs_coord_le (x y : Fin 3 → ℝ) (t : Fin 3) : |x t - y t| ≤ Real.sqrt (∑ k, (x k - y k) ^ 2) := by
  rw [← Real.sqrt_sq_eq_abs]
  exact Real.sqrt_le_sqrt (Finset.single_le_sum (f := fun k => (x k - y k) ^ 2) (fun _ _ => sq_nonneg _) (Finset.mem_univ t))

theorem mem_rim {n : ℕ} : n ∈ g.rimInnerNodeIds ↔ ∃ j k, j < g.nCircum ∧ k ≤ 1 ∧ g.nodeId g.nMerid j k = n := by
  simp only [CopvGeom.rimInnerNodeIds, List.mem_flatMap, List.mem_map, List.mem_range]
  constructor
  · rintro ⟨j, hj, k, hk, e⟩
    refine ⟨j, k, hj, ?_, e⟩
    simp at hk
    omega
  · rintro ⟨j, k, hj, hk, e⟩
    refine ⟨j, hj, k, ?_, e⟩
    simp
    omega

/-- **C101** (rim). With a tolerance below the thickness of the shell, the thickness of the layer above it and the height of the last
row of cells, the rim location function selects exactly the nodes of the last row that are on the inner shell. -/
theorem C101_rim (h : CopvOk g) {tol : ℝ} (h0 : 0 < tol) (h1 : tol ≤ g.shellT) (h2 : tol ≤ offsetOf g 2 - offsetOf g 1)
    (h3 : tol ≤ nodePos g g.nMerid 0 0 2 - nodePos g (g.nMerid - 1) 0 0 2) {i j k : ℕ} (hi : i ≤ g.nMerid) (hk : k < g.nLayers) :
    g.nearNodes g.rimInnerNodeIds tol (nodePos g i j k) ↔ i = g.nMerid ∧ k ≤ 1 := by
  have hcol := h.columns
  have hN := C101_nodes (g := g) (by omega) h.rows
  have hl : 1 < g.nLayers := by simp [CopvGeom.nLayers]
  constructor
  · rintro ⟨n, hn, hd⟩
    obtain ⟨j', k', hj', hk', rfl⟩ := mem_rim.1 hn
    have hkl : k' < g.nLayers := by omega
    have d1 := wallDist_lipschitz (g := g) (g.points.getD (g.nodeId g.nMerid j' k') fun _ => 0) (nodePos g i j k)
    have d2 := C101_layer_distance h (j := j) hi hk
    rw [(hN.2.1 i j k hi hk).2] at d2
    rw [C101_layer_distance h le_rfl hkl, d2, add_sub_add_left_eq_sub] at d1
    have s0 := offset_step h (k := 0) (by simp [CopvGeom.nRadEl])
    rw [if_pos rfl] at s0
    have hk1 : k = k' := by
      by_contra hne
      have hlt : |offsetOf g k' - offsetOf g k| < tol := lt_of_le_of_lt d1 hd
      rw [abs_lt] at hlt
      rcases Nat.lt_or_ge k 2 with hk2 | hk2
      · rcases (by omega : (k = 0 ∧ k' = 1) ∨ (k = 1 ∧ k' = 0)) with ⟨rfl, rfl⟩ | ⟨rfl, rfl⟩ <;> linarith
      · have m1 := offset_mono h hk2 hk
        have m2 := offset_mono h hk' hl
        linarith
    subst hk1
    refine ⟨?_, hk'⟩
    by_contra hne
    have hp : 0 < g.a + offsetOf g k := by linarith [h.a, offset_nonneg h hk]
    have hlast : i ≤ g.nMerid - 1 := by omega
    have z1 : baseOf g i + (g.a + offsetOf g k) * Real.sin (latOf g i) ≤
        baseOf g (g.nMerid - 1) + (g.a + offsetOf g k) * Real.sin (latOf g (g.nMerid - 1)) := by
      rcases Nat.lt_or_ge i (g.nMerid - 1) with hlt | hge
      · exact (height_strict h hlt (by omega) hp).le
      · rw [show i = g.nMerid - 1 by omega]
    have z2 : Real.sin (latOf g (g.nMerid - 1)) ≤ Real.sin (latOf g g.nMerid) := by
      have l1 := lat_range h (i := g.nMerid - 1) (by omega)
      have l2 := lat_range h (i := g.nMerid) le_rfl
      apply Real.sin_le_sin_of_le_of_le_pi_div_two (by linarith [l1.1, Real.pi_pos]) l2.2.le
      unfold latOf
      refine div_le_div_of_nonneg_right (mul_le_mul_of_nonneg_left ?_ (latMax_pos h).1.le) (Nat.cast_nonneg _)
      exact_mod_cast (by omega)
    have z3 := abs_coord_le (g.points.getD (g.nodeId g.nMerid j' k) fun _ => 0) (nodePos g i j k) 2
    rw [(hN.2.1 g.nMerid j' k le_rfl hk).2] at z3 hd
    simp only [nodePos, Matrix.cons_val] at z3 h3
    have z4 := le_abs_self (baseOf g g.nMerid + (g.a + offsetOf g k) * Real.sin (latOf g g.nMerid) -
      (baseOf g i + (g.a + offsetOf g k) * Real.sin (latOf g i)))
    have z5 : offsetOf g 0 = 0 := by simp [offsetOf]
    rw [z5] at h3
    have z6 := mul_nonneg (offset_nonneg h hk) (sub_nonneg.2 z2)
    simp only [nodePos] at hd
    linarith
  · rintro ⟨rfl, hk1⟩
    refine ⟨g.nodeId g.nMerid (j % g.nCircum) k, mem_rim.2 ⟨j % g.nCircum, k, Nat.mod_lt _ (by omega), hk1, rfl⟩, ?_⟩
    have : g.nodeId g.nMerid (j % g.nCircum) k = g.nodeId g.nMerid j k := by simp [CopvGeom.nodeId]
    rw [this, (hN.2.1 g.nMerid j k le_rfl hk).2]
    simpa using h0

example : ∃ tol > 0, ∀ i j k, i ≤ exVessel.nMerid → k < exVessel.nLayers →
    (exVessel.nearNodes exVessel.rimInnerNodeIds tol (nodePos exVessel i j k) ↔ i = exVessel.nMerid ∧ k ≤ 1) := by
  have h := exVessel_ok
  have h1 := h.shellT
  have h2 := offset_step_pos h (k := 1) (by simp [CopvGeom.nRadEl])
  have hm : exVessel.nMerid = 28 := by simp [nMerid_eq, exVessel]
  have h3 : 0 < nodePos exVessel exVessel.nMerid 0 0 2 - nodePos exVessel (exVessel.nMerid - 1) 0 0 2 := by
    have := height_strict h (i := exVessel.nMerid - 1) (i' := exVessel.nMerid) (by omega) le_rfl
      (p := exVessel.a + offsetOf exVessel 0) (by simp [exVessel, offsetOf])
    simp only [nodePos, Matrix.cons_val]
    linarith
  exact ⟨_, lt_min h1 (lt_min h2 h3), fun i j k hi hk => C101_rim h (lt_min h1 (lt_min h2 h3)) (min_le_left _ _)
    ((min_le_right _ _).trans (min_le_left _ _)) ((min_le_right _ _).trans (min_le_right _ _)) hi hk⟩

/-- **C101** (polar opening). The smallest radius of the rim of the inner shell is the radius of the polar opening that was asked
for. -/
theorem C101_polar_opening (h : CopvOk g) (hd : 1 ≤ g.nMeridDome) : g.rimInnerRadius = some g.polarRadius := by
  have hcol := h.columns
  have hN := C101_nodes (g := g) (by omega) h.rows
  have hl : 1 < g.nLayers := by simp [CopvGeom.nLayers]
  have hcos : Real.cos (latOf g g.nMerid) = g.polarRadius / g.a := by
    have hdd : (g.nMeridDome : ℝ) ≠ 0 := by exact_mod_cast (by omega : g.nMeridDome ≠ 0)
    rw [nMerid_eq, latOf, Nat.add_sub_cancel_left, mul_div_cancel_right₀ _ hdd, Real.cos_arccos]
    · have := div_pos h.polar h.a
      linarith
    · exact ((div_lt_one h.a).2 h.polar_lt).le
  have hrad : ∀ j k, k ≤ 1 → Real.sqrt (g.points.getD (g.nodeId g.nMerid j k) (fun _ => 0) 0 ^ 2 +
      g.points.getD (g.nodeId g.nMerid j k) (fun _ => 0) 1 ^ 2) = (g.a + offsetOf g k) * (g.polarRadius / g.a) := by
    intro j k hk
    rw [(hN.2.1 g.nMerid j k le_rfl (by omega)).2]
    have hp : 0 < g.a + offsetOf g k := by linarith [h.a, offset_nonneg h (show k < g.nLayers by omega)]
    have hct := Real.cos_sq_add_sin_sq (colAngle g j)
    simp only [nodePos, Matrix.cons_val_zero, Matrix.cons_val_one]
    rw [hcos]
    rw [show ((g.a + offsetOf g k) * (g.polarRadius / g.a) * Real.cos (colAngle g j)) ^ 2 +
      ((g.a + offsetOf g k) * (g.polarRadius / g.a) * Real.sin (colAngle g j)) ^ 2 = ((g.a + offsetOf g k) * (g.polarRadius / g.a)) ^ 2 by
        linear_combination ((g.a + offsetOf g k) * (g.polarRadius / g.a)) ^ 2 * hct]
    exact Real.sqrt_sq (mul_nonneg hp.le (div_pos h.polar h.a).le)
  have ha := h.a
  have hpp := div_pos h.polar h.a
  unfold CopvGeom.rimInnerRadius
  rw [List.min?_eq_some_iff]
  constructor
  · refine List.mem_map.2 ⟨g.nodeId g.nMerid 0 0, mem_rim.2 ⟨0, 0, by omega, by omega, rfl⟩, ?_⟩
    rw [hrad 0 0 (by omega)]
    simp [offsetOf]
    field_simp
  · intro b hb
    obtain ⟨n, hn, rfl⟩ := List.mem_map.1 hb
    obtain ⟨j, k, _, hk, rfl⟩ := mem_rim.1 hn
    rw [hrad j k hk]
    have h1 := offset_nonneg h (show k < g.nLayers by omega)
    have h2 : g.a * (g.polarRadius / g.a) = g.polarRadius := by field_simp
    nlinarith [mul_nonneg h1 hpp.le]

example : exVessel.rimInnerRadius = some 25 := C101_polar_opening exVessel_ok (by simp [exVessel])

/-! ## C102: constraints -/

theorem mem_equator {n : ℕ} : n ∈ g.equatorNodeIds ↔ ∃ j k, j < g.nCircum ∧ k < g.nLayers ∧ g.nodeId 0 j k = n := by
  simp only [CopvGeom.equatorNodeIds, List.mem_flatMap, List.mem_map, List.mem_range]
  constructor
  · rintro ⟨j, hj, k, hk, e⟩
    exact ⟨j, k, hj, hk, e⟩
  · rintro ⟨j, k, hj, hk, e⟩
    exact ⟨j, hj, k, hk, e⟩

/-- The nodes of the symmetry plane. -/
def OnEquator (g : CopvGeom) (n : ℕ) : Prop := g.points.getD n (fun _ => 0) 2 = 0

/-- **C102** (symmetry plane). The axial constraints are exactly the axial DOFs of the nodes in the plane `z = 0`. -/
theorem C102_symmetry_plane (h : CopvOk g) {n : ℕ} (hn : n < g.points.length) (c : Fin 3) :
    n * 3 + c.val ∈ g.equatorAxialDofs ↔ OnEquator g n ∧ c = 2 := by
  have hcol := h.columns
  have hN := C101_nodes (g := g) (by omega) h.rows
  have hz : OnEquator g n ↔ n ∈ g.equatorNodeIds := by
    obtain ⟨i, j, k, hi, hj, hk, rfl, huniq⟩ := hN.2.2.2 n hn
    have hp : 0 < g.a + offsetOf g k := by linarith [h.a, offset_nonneg h hk]
    unfold OnEquator
    rw [(hN.2.1 i j k hi hk).2, mem_equator]
    have z0 : baseOf g 0 + (g.a + offsetOf g k) * Real.sin (latOf g 0) = 0 := by simp [baseOf, latOf]
    constructor
    · intro e
      simp only [nodePos, Matrix.cons_val] at e
      rcases Nat.eq_zero_or_pos i with h0 | h0
      · exact ⟨j, k, hj, hk, by rw [h0]⟩
      · have := height_strict h h0 hi hp
        linarith
    · rintro ⟨j', k', hj', hk', e⟩
      have := (huniq 0 j' k' (Nat.zero_le _) hj' hk' e).1
      simp only [nodePos, Matrix.cons_val]
      rw [← this]
      exact z0
  rw [hz]
  simp only [CopvGeom.equatorAxialDofs, List.mem_map]
  constructor
  · rintro ⟨m, hm, e⟩
    have : m = n ∧ c.val = 2 := by have := c.isLt; omega
    exact ⟨this.1 ▸ hm, Fin.ext this.2⟩
  · rintro ⟨hm, rfl⟩
    exact ⟨n, hm, rfl⟩

/-- **C102** (free DOFs). The free DOFs are, in increasing order and without repetition, all DOFs except the constrained ones. -/
theorem C102_free_dofs (N : ℕ) : (g.freeDofs N).Pairwise (· < ·) ∧
    ∀ d, d ∈ g.freeDofs N ↔ d < N ∧ d ∉ g.equatorAxialDofs ∧ d ∉ g.pinDofs := by
  constructor
  · exact List.Pairwise.filter _ List.pairwise_lt_range
  · intro d
    simp [CopvGeom.freeDofs]

/-- A small rigid motion: a translation and a rotation about the origin. -/
def rigidMotion (c w x : Fin 3 → ℝ) : Fin 3 → ℝ :=
  ![c 0 + (w 1 * x 2 - w 2 * x 1), c 1 + (w 2 * x 0 - w 0 * x 2), c 2 + (w 0 * x 1 - w 1 * x 0)]

theorem rigid_vanishes (h : CopvOk g) (c w : Fin 3 → ℝ)
    (hfix : ∀ n < g.points.length, ∀ t : Fin 3, n * 3 + t.val ∈ g.equatorAxialDofs ∨ n * 3 + t.val ∈ g.pinDofs →
      rigidMotion c w (g.points.getD n fun _ => 0) t = 0) : c = 0 ∧ w = 0 := by
  have hcol := h.columns
  have hN := C101_nodes (g := g) (by omega) h.rows
  have hl : 0 < g.nLayers := by simp [CopvGeom.nLayers]
  have hl1 : 1 < g.nLayers := by simp [CopvGeom.nLayers]
  have hax : ∀ j k, j < g.nCircum → k < g.nLayers → rigidMotion c w (nodePos g 0 j k) 2 = 0 := by
    intro j k hj hk
    have h1 := hN.2.1 0 j k (Nat.zero_le _) hk
    have := hfix _ h1.1 2 (Or.inl ((C102_symmetry_plane h h1.1 2).2 ⟨?_, rfl⟩))
    · rwa [h1.2] at this
    · unfold OnEquator
      rw [h1.2]
      simp [nodePos, baseOf, latOf]
  have hpin : ∀ j (t : Fin 3), g.nodeId 0 j 0 * 3 + t.val ∈ g.pinDofs → rigidMotion c w (nodePos g 0 j 0) t = 0 := by
    intro j t ht
    have h1 := hN.2.1 0 j 0 (Nat.zero_le _) hl
    have := hfix _ h1.1 t (Or.inr ht)
    rwa [h1.2] at this
  have ha := h.a
  have hs := h.shellT
  have hO0 : offsetOf g 0 = 0 := by simp [offsetOf]
  have hO1 : offsetOf g 1 = g.shellT := by
    have := offset_step h (k := 0) (by simp [CopvGeom.nRadEl])
    rw [if_pos rfl, hO0] at this
    linarith
  have hL0 : latOf g 0 = 0 := by simp [latOf]
  have hB0 : baseOf g 0 = 0 := by simp [baseOf]
  have hC0 : colAngle g 0 = 0 := by simp [colAngle]
  have e1 := hax 0 0 (by omega) hl
  have e2 := hax 0 1 (by omega) hl1
  have e3 := hax 1 0 (by omega) hl
  have e4 := hpin 0 0 (by simp [CopvGeom.pinDofs])
  have e5 := hpin 0 1 (by simp [CopvGeom.pinDofs])
  have e6 := hpin (g.nCircum / 2) 1 (by simp [CopvGeom.pinDofs])
  simp [rigidMotion, nodePos, hO0, hO1, hL0, hB0, hC0] at e1 e2 e3 e4 e5 e6
  have hw1 : w 1 = 0 := by
    have : w 1 * g.shellT = 0 := by linarith
    exact (mul_eq_zero.1 this).resolve_right hs.ne'
  have hc2 : c 2 = 0 := by rw [hw1] at e1; linarith
  have hcR : (3 : ℝ) ≤ (g.nCircum : ℝ) := by exact_mod_cast hcol
  have hsin : 0 < Real.sin (colAngle g 1) := by
    have := col_sin_pos h 0
    rw [hC0] at this
    simpa using this
  have hw0 : w 0 = 0 := by
    rw [hw1, hc2] at e3
    have : w 0 * (g.a * Real.sin (colAngle g 1)) = 0 := by linarith
    exact (mul_eq_zero.1 this).resolve_right (mul_pos ha hsin).ne'
  have hcosB : Real.cos (colAngle g (g.nCircum / 2)) < 1 := by
    have h1 : 1 ≤ g.nCircum / 2 := by omega
    have h2 : g.nCircum / 2 < g.nCircum := by omega
    refine lt_of_le_of_ne (Real.cos_le_one _) fun e => ?_
    have e' : Real.sin (colAngle g (g.nCircum / 2)) = 0 := by
      have := Real.cos_sq_add_sin_sq (colAngle g (g.nCircum / 2))
      rw [e] at this
      nlinarith
    have := col_inj (g := g) (j := g.nCircum / 2) (j' := 0) h2 (by omega) (by rw [e, hC0, Real.cos_zero]) (by rw [e', hC0, Real.sin_zero])
    omega
  have hw2 : w 2 = 0 := by
    have : w 2 * (g.a * (1 - Real.cos (colAngle g (g.nCircum / 2)))) = 0 := by linarith
    exact (mul_eq_zero.1 this).resolve_right (mul_pos ha (by linarith)).ne'
  have hc1 : c 1 = 0 := by rw [hw2] at e5; linarith
  constructor
  · funext t
    fin_cases t
    · simpa using e4
    · exact hc1
    · exact hc2
  · funext t
    fin_cases t
    · exact hw0
    · exact hw1
    · exact hw2

/-- **C102** (no rigid motion is left). A rigid motion whose values at all constrained DOFs are zero is zero: the free DOFs of the
buckling problem carry no rigid mode. -/
theorem C102_no_rigid_modes (h : CopvOk g) (c w : Fin 3 → ℝ)
    (hfix : ∀ n < g.points.length, ∀ t : Fin 3, n * 3 + t.val ∉ g.freeDofs (3 * g.points.length) →
      rigidMotion c w (g.points.getD n fun _ => 0) t = 0) : c = 0 ∧ w = 0 := by
  refine rigid_vanishes h c w fun n hn t ht => hfix n hn t fun hf => ?_
  have := ((C102_free_dofs (g := g) _).2 _).1 hf
  rcases ht with ht | ht
  · exact this.2.1 ht
  · exact this.2.2 ht

/-- **C102** (the symmetry plane alone is not enough). With the axial constraints only, the translations across the axis and the
rotation about it remain: the three pins are needed. -/
theorem C102_pins_needed (h : CopvOk g) : ∀ n < g.points.length, ∀ t : Fin 3, n * 3 + t.val ∈ g.equatorAxialDofs →
    rigidMotion ![1, 0, 0] 0 (g.points.getD n fun _ => 0) t = 0 ∧ rigidMotion ![0, 1, 0] 0 (g.points.getD n fun _ => 0) t = 0 ∧
    rigidMotion 0 ![0, 0, 1] (g.points.getD n fun _ => 0) t = 0 := by
  intro n hn t ht
  obtain ⟨_, rfl⟩ := (C102_symmetry_plane h hn t).1 ht
  simp [rigidMotion]

/-- **C102** (the pins). The three pins are distinct DOFs and none of them is an axial constraint. -/
theorem C102_pins (h : CopvOk g) : g.pinDofs.Nodup ∧ g.pinDofs.length = 3 ∧ ∀ d ∈ g.pinDofs, d ∉ g.equatorAxialDofs := by
  have hcol := h.columns
  have h1 : g.nCircum / 2 % g.nCircum = g.nCircum / 2 := Nat.mod_eq_of_lt (by omega)
  have h2 : 0 < g.nCircum / 2 * g.nLayers := Nat.mul_pos (by omega) (by simp [CopvGeom.nLayers])
  refine ⟨?_, rfl, ?_⟩
  · have e0 : g.nodeId 0 0 0 = 0 := by simp [CopvGeom.nodeId]
    have e1 : g.nodeId 0 (g.nCircum / 2) 0 = g.nCircum / 2 * g.nLayers := by simp [CopvGeom.nodeId, h1]
    unfold CopvGeom.pinDofs
    rw [e0, e1]
    generalize g.nCircum / 2 * g.nLayers = X at h2
    simp
    omega
  · intro d hd hd'
    obtain ⟨n, _, rfl⟩ := List.mem_map.1 hd'
    simp [CopvGeom.pinDofs] at hd
    omega

example (c w : Fin 3 → ℝ) (hfix : ∀ n < exVessel.points.length, ∀ t : Fin 3,
    n * 3 + t.val ∉ exVessel.freeDofs (3 * exVessel.points.length) →
      rigidMotion c w (exVessel.points.getD n fun _ => 0) t = 0) : c = 0 ∧ w = 0 := C102_no_rigid_modes exVessel_ok c w hfix

/-- The opposite node is opposite only for an even number of columns: with three columns it is at a third of a turn. -/
theorem C102_opposite (h : CopvOk g) (he : g.nCircum % 2 = 0) : colAngle g (g.nCircum / 2) = Real.pi := by
  have hcol := h.columns
  have hn : (g.nCircum : ℝ) ≠ 0 := by exact_mod_cast (by omega : g.nCircum ≠ 0)
  have : ((g.nCircum / 2 : ℕ) : ℝ) = (g.nCircum : ℝ) / 2 := by
    rw [eq_div_iff (by norm_num)]
    exact_mod_cast (by omega : g.nCircum / 2 * 2 = g.nCircum)
  unfold colAngle
  rw [this]
  field_simp

/-! ## C103: winding -/

theorem norm3_eq {v : Fin 3 → ℝ} {n : ℝ} (hn : 0 ≤ n) (h : v 0 ^ 2 + v 1 ^ 2 + v 2 ^ 2 = n ^ 2) : normV v = n := by
  rw [normV, Fin.sum_univ_three, h, Real.sqrt_sq hn]

theorem triad_wall (p0 p1 c0 c1 s0 s1 b0 b1 ct0 ct1 st0 st1 rho cm sm cp sp N : ℝ) (hct : ct0 + ct1 = 2 * (rho * cm))
    (hst : st0 + st1 = 2 * (rho * sm)) (hm : cm ^ 2 + sm ^ 2 = 1) (hp : cp ^ 2 + sp ^ 2 = 1) (hN : 0 < N)
    (hc : (c0 + c1) / 2 * rho = N * cp) (hs : (s0 + s1) / 2 = N * sp) (hcp : 0 < cp) (hd : p0 < p1) (hp0 : 0 < p0) :
    cellTriad (wallCell p0 p1 c0 c1 s0 s1 b0 b1 ct0 ct1 st0 st1) ![0, 0, 1] =
      ⟨![cm * sp, sm * sp, -cp], ![-sm, cm, 0], ![cm * cp, sm * cp, sp], (p0 + p1) / 2 * (N * cp)⟩ := by
  have hdp : 0 < p1 - p0 := by linarith
  have hk : 0 < (p1 - p0) * N := mul_pos hdp hN
  have hR : 0 < (p0 + p1) / 2 * (N * cp) := by
    have := mul_pos hN hcp
    have : 0 < (p0 + p1) / 2 := by linarith
    positivity
  have e3 : (unitV fun k => (wallCell p0 p1 c0 c1 s0 s1 b0 b1 ct0 ct1 st0 st1 4 k + wallCell p0 p1 c0 c1 s0 s1 b0 b1 ct0 ct1 st0 st1 5 k +
      wallCell p0 p1 c0 c1 s0 s1 b0 b1 ct0 ct1 st0 st1 6 k + wallCell p0 p1 c0 c1 s0 s1 b0 b1 ct0 ct1 st0 st1 7 k) / 4 -
      (wallCell p0 p1 c0 c1 s0 s1 b0 b1 ct0 ct1 st0 st1 0 k + wallCell p0 p1 c0 c1 s0 s1 b0 b1 ct0 ct1 st0 st1 1 k +
      wallCell p0 p1 c0 c1 s0 s1 b0 b1 ct0 ct1 st0 st1 2 k + wallCell p0 p1 c0 c1 s0 s1 b0 b1 ct0 ct1 st0 st1 3 k) / 4) =
      ![cm * cp, sm * cp, sp] := by
    have hv : (fun k => (wallCell p0 p1 c0 c1 s0 s1 b0 b1 ct0 ct1 st0 st1 4 k + wallCell p0 p1 c0 c1 s0 s1 b0 b1 ct0 ct1 st0 st1 5 k +
      wallCell p0 p1 c0 c1 s0 s1 b0 b1 ct0 ct1 st0 st1 6 k + wallCell p0 p1 c0 c1 s0 s1 b0 b1 ct0 ct1 st0 st1 7 k) / 4 -
      (wallCell p0 p1 c0 c1 s0 s1 b0 b1 ct0 ct1 st0 st1 0 k + wallCell p0 p1 c0 c1 s0 s1 b0 b1 ct0 ct1 st0 st1 1 k +
      wallCell p0 p1 c0 c1 s0 s1 b0 b1 ct0 ct1 st0 st1 2 k + wallCell p0 p1 c0 c1 s0 s1 b0 b1 ct0 ct1 st0 st1 3 k) / 4) =
      fun k => (p1 - p0) * N * (![cm * cp, sm * cp, sp] : Fin 3 → ℝ) k := by
      funext k
      fin_cases k <;> simp [wallCell]
      · linear_combination (p1 - p0) * (c0 + c1) / 4 * hct + (p1 - p0) * cm * hc
      · linear_combination (p1 - p0) * (c0 + c1) / 4 * hst + (p1 - p0) * sm * hc
      · linear_combination (p1 - p0) * hs
    rw [hv]
    funext k
    rw [unitV, norm3_eq (n := (p1 - p0) * N) hk.le]
    · exact mul_div_cancel_left₀ _ hk.ne'
    · simp
      linear_combination ((p1 - p0) * N) ^ 2 * (cp ^ 2 * hm + hp)
  have hcen : (fun k => (∑ a, wallCell p0 p1 c0 c1 s0 s1 b0 b1 ct0 ct1 st0 st1 a k) / 8) =
      ![(p0 + p1) / 2 * (N * cp) * cm, (p0 + p1) / 2 * (N * cp) * sm, (b0 + b1) / 2 + (p0 + p1) / 2 * (N * sp)] := by
    funext k
    fin_cases k <;> simp [wallCell, Fin.sum_univ_eight]
    · linear_combination (p0 + p1) * (c0 + c1) / 8 * hct + (p0 + p1) / 2 * cm * hc
    · linear_combination (p0 + p1) * (c0 + c1) / 8 * hst + (p0 + p1) / 2 * sm * hc
    · linear_combination (p0 + p1) / 2 * hs
  have hr : (fun k => (∑ a, wallCell p0 p1 c0 c1 s0 s1 b0 b1 ct0 ct1 st0 st1 a k) / 8 -
      dotV (fun k => (∑ a, wallCell p0 p1 c0 c1 s0 s1 b0 b1 ct0 ct1 st0 st1 a k) / 8) ![0, 0, 1] * (![0, 0, 1] : Fin 3 → ℝ) k) =
      fun k => (p0 + p1) / 2 * (N * cp) * (![cm, sm, 0] : Fin 3 → ℝ) k := by
    funext k
    rw [hcen, congrFun hcen k]
    fin_cases k <;> simp [dotV, Fin.sum_univ_three]
  have hnr : normV (fun k => (p0 + p1) / 2 * (N * cp) * (![cm, sm, 0] : Fin 3 → ℝ) k) = (p0 + p1) / 2 * (N * cp) := by
    apply norm3_eq hR.le
    simp
    linear_combination ((p0 + p1) / 2 * (N * cp)) ^ 2 * hm
  have her : unitV (fun k => (p0 + p1) / 2 * (N * cp) * (![cm, sm, 0] : Fin 3 → ℝ) k) = ![cm, sm, 0] := by
    funext k
    rw [unitV, hnr]
    exact mul_div_cancel_left₀ _ hR.ne'
  have ht : (unitV fun k => crossV ![0, 0, 1] ![cm, sm, 0] k - dotV (crossV ![0, 0, 1] ![cm, sm, 0]) ![cm * cp, sm * cp, sp] *
      (![cm * cp, sm * cp, sp] : Fin 3 → ℝ) k) = ![-sm, cm, 0] := by
    have hv : (fun k => crossV ![0, 0, 1] ![cm, sm, 0] k - dotV (crossV ![0, 0, 1] ![cm, sm, 0]) ![cm * cp, sm * cp, sp] *
      (![cm * cp, sm * cp, sp] : Fin 3 → ℝ) k) = ![-sm, cm, 0] := by
      have hz : dotV (crossV ![0, 0, 1] ![cm, sm, 0]) ![cm * cp, sm * cp, sp] = 0 := by
        simp [dotV, crossV, Fin.sum_univ_three]
        ring
      rw [hz]
      funext k
      fin_cases k <;> simp [crossV]
    rw [hv]
    funext k
    rw [unitV, norm3_eq (n := 1) zero_le_one, div_one]
    simp
    linear_combination hm
  unfold cellTriad
  simp only [e3, hr, hnr, her, ht]
  congr 1
  funext k
  fin_cases k
  · show cm * sp - 0 * (sm * cp) = cm * sp
    ring
  · show 0 * (cm * cp) - (-sm) * sp = sm * sp
    ring
  · show -sm * (sm * cp) - cm * (cm * cp) = -cp
    linear_combination (-cp) * hm

/-- Middle angle of a column. -/
def midAngle (g : CopvGeom) (j : ℕ) : ℝ := 2 * Real.pi * ((j : ℝ) + 1 / 2) / (g.nCircum : ℝ)

/-- Middle latitude of a row of cells. -/
def midLat (g : CopvGeom) (i : ℕ) : ℝ := (latOf g i + latOf g (i + 1)) / 2

/-- Latitude of the direction across the wall. -/
def wallLat (g : CopvGeom) (i : ℕ) : ℝ := Real.arctan (Real.tan (midLat g i) / Real.cos (Real.pi / (g.nCircum : ℝ)))

/-- Distance of the centre of a cell from the axis. -/
def cellRadius (g : CopvGeom) (i ke : ℕ) : ℝ :=
  (g.a + (offsetOf g ke + offsetOf g (ke + 1)) / 2) * ((Real.cos (latOf g i) + Real.cos (latOf g (i + 1))) / 2) *
    Real.cos (Real.pi / (g.nCircum : ℝ))

theorem cos_pi_div_pos (h : CopvOk g) : 0 < Real.cos (Real.pi / (g.nCircum : ℝ)) := by
  have hc : (3 : ℝ) ≤ (g.nCircum : ℝ) := by exact_mod_cast h.columns
  have hpi := Real.pi_pos
  apply Real.cos_pos_of_mem_Ioo
  constructor
  · have : 0 < Real.pi / (g.nCircum : ℝ) := by positivity
    linarith
  · rw [div_lt_div_iff₀ (by linarith) (by norm_num)]
    nlinarith

theorem cellRadius_pos (h : CopvOk g) {i ke : ℕ} (hi : i < g.nMerid) (hke : ke < g.nRadEl) : 0 < cellRadius g i ke := by
  have hk0 : ke < g.nLayers := by simp only [CopvGeom.nLayers, CopvGeom.nRadEl] at *; omega
  have hk1 : ke + 1 < g.nLayers := by simp only [CopvGeom.nLayers, CopvGeom.nRadEl] at *; omega
  have h1 := offset_nonneg h hk0
  have h2 := offset_nonneg h hk1
  have c0 := lat_cos_pos h hi.le
  have c1 := lat_cos_pos h (Nat.succ_le_of_lt hi)
  have ha := h.a
  exact mul_pos (mul_pos (by linarith) (by linarith)) (cos_pi_div_pos h)

/-- **C103** (directions of a cell). For the cell at row `i` and column `j`, with `θ` the middle angle of the column: the hoop
direction is the circumferential direction at `θ`, the normal points out of the wall in the meridian plane at `θ`, the meridional
direction is perpendicular to both, and the radius is the distance of the centre of the cell from the axis. -/
theorem C103_triad (h : CopvOk g) {i j ke : ℕ} (hi : i < g.nMerid) (hj : j < g.nCircum) (hke : ke < g.nRadEl) :
    cellTriad (g.cellNodes ((i * g.nCircum + j) * g.nRadEl + ke)) g.axis =
      ⟨![Real.cos (midAngle g j) * Real.sin (wallLat g i), Real.sin (midAngle g j) * Real.sin (wallLat g i), -Real.cos (wallLat g i)],
        ![-Real.sin (midAngle g j), Real.cos (midAngle g j), 0],
        ![Real.cos (midAngle g j) * Real.cos (wallLat g i), Real.sin (midAngle g j) * Real.cos (wallLat g i), Real.sin (wallLat g i)],
        cellRadius g i ke⟩ := by
  have hn : (g.nCircum : ℝ) ≠ 0 := by exact_mod_cast (by omega : g.nCircum ≠ 0)
  have hρ := cos_pi_div_pos h
  have c0 := lat_cos_pos h hi.le
  have c1 := lat_cos_pos h (Nat.succ_le_of_lt hi)
  have hcw : 0 < Real.cos (wallLat g i) := Real.cos_arctan_pos _
  have hk0 : ke < g.nLayers := by simp only [CopvGeom.nLayers, CopvGeom.nRadEl] at *; omega
  have hp := offset_step_pos h hke
  have h0 := offset_nonneg h hk0
  have ha := h.a
  have m0 : midAngle g j - Real.pi / (g.nCircum : ℝ) = colAngle g j := by
    unfold midAngle colAngle
    field_simp
    ring
  have m1 : midAngle g j + Real.pi / (g.nCircum : ℝ) = colAngle g (j + 1) := by
    unfold midAngle colAngle
    push_cast
    field_simp
    ring
  have hct : Real.cos (colAngle g j) + Real.cos (colAngle g (j + 1)) = 2 * (Real.cos (Real.pi / (g.nCircum : ℝ)) * Real.cos (midAngle g j)) := by
    rw [← m0, ← m1, Real.cos_sub, Real.cos_add]
    ring
  have hst : Real.sin (colAngle g j) + Real.sin (colAngle g (j + 1)) = 2 * (Real.cos (Real.pi / (g.nCircum : ℝ)) * Real.sin (midAngle g j)) := by
    rw [← m0, ← m1, Real.sin_sub, Real.sin_add]
    ring
  -- the two halves of the row
  have hd0 : latOf g i = midLat g i - (latOf g (i + 1) - latOf g i) / 2 := by unfold midLat; ring
  have hd1 : latOf g (i + 1) = midLat g i + (latOf g (i + 1) - latOf g i) / 2 := by unfold midLat; ring
  have hC : Real.cos (latOf g i) + Real.cos (latOf g (i + 1)) = 2 * (Real.cos ((latOf g (i + 1) - latOf g i) / 2) * Real.cos (midLat g i)) := by
    have e1 := Real.cos_sub (midLat g i) ((latOf g (i + 1) - latOf g i) / 2)
    have e2 := Real.cos_add (midLat g i) ((latOf g (i + 1) - latOf g i) / 2)
    rw [← hd0] at e1
    rw [← hd1] at e2
    rw [e1, e2]
    ring
  have hS : Real.sin (latOf g i) + Real.sin (latOf g (i + 1)) = 2 * (Real.cos ((latOf g (i + 1) - latOf g i) / 2) * Real.sin (midLat g i)) := by
    have e1 := Real.sin_sub (midLat g i) ((latOf g (i + 1) - latOf g i) / 2)
    have e2 := Real.sin_add (midLat g i) ((latOf g (i + 1) - latOf g i) / 2)
    rw [← hd0] at e1
    rw [← hd1] at e2
    rw [e1, e2]
    ring
  have hcm : Real.cos (midLat g i) ≠ 0 := by
    intro e
    rw [e] at hC
    linarith
  have htan : Real.sin (wallLat g i) * (Real.cos (midLat g i) * Real.cos (Real.pi / (g.nCircum : ℝ))) =
      Real.cos (wallLat g i) * Real.sin (midLat g i) := by
    have e : Real.tan (wallLat g i) = Real.tan (midLat g i) / Real.cos (Real.pi / (g.nCircum : ℝ)) := Real.tan_arctan _
    rw [Real.tan_eq_sin_div_cos, Real.tan_eq_sin_div_cos] at e
    field_simp at e
    linear_combination e
  have hN : 0 < (Real.cos (latOf g i) + Real.cos (latOf g (i + 1))) / 2 * Real.cos (Real.pi / (g.nCircum : ℝ)) / Real.cos (wallLat g i) :=
    div_pos (mul_pos (by linarith) hρ) hcw
  rw [cellNodes_eq h.rows hi hj hke, h.axis,
    triad_wall _ _ _ _ _ _ _ _ _ _ _ _ (Real.cos (Real.pi / (g.nCircum : ℝ))) (Real.cos (midAngle g j)) (Real.sin (midAngle g j))
      (Real.cos (wallLat g i)) (Real.sin (wallLat g i)) _ hct hst (Real.cos_sq_add_sin_sq _) (Real.cos_sq_add_sin_sq _) hN
      (div_mul_cancel₀ _ hcw.ne').symm ?_ hcw (by linarith) (by linarith)]
  · congr 1
    rw [div_mul_cancel₀ _ hcw.ne']
    unfold cellRadius
    ring
  · rw [hS, hC]
    field_simp
    linear_combination (-Real.cos ((latOf g (i + 1) - latOf g i) / 2)) * htan

/-- On the cylinder the direction across the wall is radial. -/
theorem C103_cylinder_normal {i : ℕ} (hi : i < g.nMeridCyl) : wallLat g i = 0 := by
  have h0 : latOf g i = 0 := by simp [latOf, Nat.sub_eq_zero_of_le hi.le]
  have h1 : latOf g (i + 1) = 0 := by simp [latOf, Nat.sub_eq_zero_of_le (Nat.succ_le_of_lt hi)]
  simp [wallLat, midLat, h0, h1]

/-- Unit and mutually perpendicular directions, with the normal equal to meridional times hoop. -/
structure GoodTriad (T : Triad) : Prop where
  mm : dotV T.merid T.merid = 1
  hh : dotV T.hoop T.hoop = 1
  nn : dotV T.normal T.normal = 1
  mh : dotV T.merid T.hoop = 0
  mn : dotV T.merid T.normal = 0
  hn : dotV T.hoop T.normal = 0
  right : crossV T.merid T.hoop = T.normal

theorem good_triad (h : CopvOk g) {e : ℕ} (he : e < g.cells.length) : GoodTriad (cellTriad (g.cellNodes e) g.axis) := by
  obtain ⟨i, j, ke, hi, hj, hke, rfl⟩ := cell_index he
  rw [C103_triad h hi hj hke]
  have h1 := Real.cos_sq_add_sin_sq (midAngle g j)
  have h2 := Real.cos_sq_add_sin_sq (wallLat g i)
  constructor <;> simp only [dotV, Fin.sum_univ_three, Matrix.cons_val_zero, Matrix.cons_val_one, Matrix.cons_val]
  · linear_combination Real.sin (wallLat g i) ^ 2 * h1 + h2
  · linear_combination h1
  · linear_combination Real.cos (wallLat g i) ^ 2 * h1 + h2
  · ring
  · linear_combination Real.sin (wallLat g i) * Real.cos (wallLat g i) * h1
  · ring
  · funext k
    fin_cases k <;> simp [crossV]
    · ring
    · ring
    · linear_combination Real.sin (wallLat g i) * h1

/-- A proper rotation: orthogonal, keeping the orientation. -/
def ProperRotation (R : Arr2 ℝ 3) : Prop := Orthogonal R ∧ Matrix.det (Matrix.of R) = 1

theorem rotation_of_cols {R : Arr2 ℝ 3} (h00 : ∑ p, R p 0 * R p 0 = 1) (h11 : ∑ p, R p 1 * R p 1 = 1) (h22 : ∑ p, R p 2 * R p 2 = 1)
    (h01 : ∑ p, R p 0 * R p 1 = 0) (h02 : ∑ p, R p 0 * R p 2 = 0) (h12 : ∑ p, R p 1 * R p 2 = 0)
    (hr : crossV (fun p => R p 0) (fun p => R p 1) = fun p => R p 2) : ProperRotation R := by
  have hT : (Matrix.of R).transpose * Matrix.of R = 1 := by
    ext i j
    rw [Matrix.mul_apply]
    simp only [Matrix.transpose_apply, Matrix.of_apply]
    fin_cases i <;> fin_cases j <;> simp [-Fin.sum_univ_three] at *
    · exact h00
    · exact h01
    · exact h02
    · rw [← h01]; exact Finset.sum_congr rfl fun p _ => mul_comm _ _
    · exact h11
    · exact h12
    · rw [← h02]; exact Finset.sum_congr rfl fun p _ => mul_comm _ _
    · rw [← h12]; exact Finset.sum_congr rfl fun p _ => mul_comm _ _
    · exact h22
  constructor
  · have h' := mul_eq_one_comm.1 hT
    intro i j
    have := congrFun (congrFun h' i) j
    rw [Matrix.mul_apply] at this
    simpa [eye, Matrix.one_apply] using this
  · have a0 := congrFun hr 0
    have a1 := congrFun hr 1
    have a2 := congrFun hr 2
    simp [crossV] at a0 a1 a2
    rw [Matrix.det_fin_three]
    simp only [Matrix.of_apply]
    rw [Fin.sum_univ_three] at h22
    linear_combination h22 + R 0 2 * a0 + R 1 2 * a1 + R 2 2 * a2

theorem helical_rotation {T : Triad} (h : GoodTriad T) (ang : ℝ) : ProperRotation (helicalFrame T ang) := by
  have hcs := Real.cos_sq_add_sin_sq ang
  obtain ⟨mm, hh, nn, mh, mn, hn, right⟩ := h
  have r0 := congrFun right 0
  have r1 := congrFun right 1
  have r2 := congrFun right 2
  simp [dotV, Fin.sum_univ_three, crossV] at mm hh nn mh mn hn r0 r1 r2
  apply rotation_of_cols
  all_goals try (rw [Fin.sum_univ_three]; simp [helicalFrame])
  · linear_combination Real.cos ang ^ 2 * mm + Real.sin ang ^ 2 * hh + 2 * Real.cos ang * Real.sin ang * mh + hcs
  · linear_combination Real.sin ang ^ 2 * mm + Real.cos ang ^ 2 * hh - 2 * Real.cos ang * Real.sin ang * mh + hcs
  · linear_combination nn
  · linear_combination Real.cos ang * Real.sin ang * (hh - mm) + (Real.cos ang ^ 2 - Real.sin ang ^ 2) * mh
  · linear_combination Real.cos ang * mn + Real.sin ang * hn
  · linear_combination -Real.sin ang * mn + Real.cos ang * hn
  · funext k
    fin_cases k <;> simp [crossV, helicalFrame]
    · linear_combination r0 + (T.merid 1 * T.hoop 2 - T.merid 2 * T.hoop 1) * hcs
    · linear_combination r1 + (T.merid 2 * T.hoop 0 - T.merid 0 * T.hoop 2) * hcs
    · linear_combination r2 + (T.merid 0 * T.hoop 1 - T.merid 1 * T.hoop 0) * hcs

theorem hoopFrame_eq (T : Triad) : hoopFrame T = helicalFrame T (Real.pi / 2) := by
  funext i
  simp [hoopFrame, helicalFrame]

/-- The number of hoop plies in a layup. -/
def hoopCount (layup : List (String × ℝ)) : ℕ := layup.countP fun q => q.1 = "hoop"

/-- The angle of ply `p` of a layup, from the meridian: hoop plies are at a right angle, except on a dome where they may be dropped;
then they continue as helical plies of alternating sign; helical plies have the sign given. -/
def plyAngle (layup : List (String × ℝ)) (alpha : ℝ) (dropped : Bool) (p : ℕ) : ℝ :=
  if (layup.getD p ("", 0)).1 = "hoop" then
    if dropped then (if hoopCount (layup.take p) % 2 = 0 then 1 else -1) * alpha else Real.pi / 2
  else (layup.getD p ("", 0)).2 * alpha

theorem plyFramesFrom_eq (T : Triad) (alpha : ℝ) (dome drop : Bool) (layup : List (String × ℝ)) (n : ℕ) :
    plyFramesFrom T alpha dome drop n layup = (List.range layup.length).map fun p => helicalFrame T
      (if (layup.getD p ("", 0)).1 = "hoop" then
        if drop && dome then (if (n + hoopCount (layup.take p)) % 2 = 0 then 1 else -1) * alpha else Real.pi / 2
      else (layup.getD p ("", 0)).2 * alpha) := by
  induction layup generalizing n with
  | nil => rfl
  | cons q rest ih =>
    obtain ⟨kind, sign⟩ := q
    rw [List.length_cons, List.range_succ_eq_map, List.map_cons, List.map_map]
    by_cases hk : kind = "hoop"
    · subst hk
      rw [plyFramesFrom, if_pos rfl, ih]
      congr 1
      · cases drop <;> cases dome <;> simp [hoopCount, hoopFrame_eq]
      · apply List.map_congr_left
        intro p _
        simp [hoopCount, Nat.add_assoc, Nat.add_comm 1]
    · rw [plyFramesFrom, if_neg hk, ih]
      congr 1
      · simp [hk]
      · apply List.map_congr_left
        intro p _
        have e : hoopCount (List.take (p + 1) ((kind, sign) :: rest)) = hoopCount (List.take p rest) := by
          rw [List.take_succ_cons, hoopCount, List.countP_cons_of_neg (by simpa using hk)]
          rfl
        simp only [Function.comp_apply, Nat.succ_eq_add_one, List.getD_cons_succ, e]

theorem cellFrames_eq (layup : List (String × ℝ)) (drop : Bool) (e : ℕ) :
    g.cellFrames layup drop e = (List.range layup.length).map fun p => helicalFrame (cellTriad (g.cellNodes e) g.axis)
      (plyAngle layup (windingAngle g.polarRadius (cellTriad (g.cellNodes e) g.axis).radius) (drop && g.domeCellMask.getD e false) p) := by
  unfold CopvGeom.cellFrames plyFrames
  simp only
  rw [plyFramesFrom_eq]
  simp [plyAngle]

/-- **C103** (frames). Every ply of every cell has a proper rotation as its frame; its third direction is the normal of the wall and
its first direction, the fibre, is in the wall at the angle of the ply from the meridian. -/
theorem C103_frames (h : CopvOk g) (layup : List (String × ℝ)) (drop : Bool) {i j ke p : ℕ} (hi : i < g.nMerid) (hj : j < g.nCircum)
    (hke : ke < g.nRadEl) (hp : p < layup.length) :
    (g.cellFrames layup drop ((i * g.nCircum + j) * g.nRadEl + ke)).length = layup.length ∧
    ∃ R, (g.cellFrames layup drop ((i * g.nCircum + j) * g.nRadEl + ke))[p]? = some R ∧ ProperRotation R ∧
      (fun k => R k 2) = ![Real.cos (midAngle g j) * Real.cos (wallLat g i), Real.sin (midAngle g j) * Real.cos (wallLat g i),
        Real.sin (wallLat g i)] ∧
      ∃ ang, ang = plyAngle layup (windingAngle g.polarRadius (cellRadius g i ke)) (drop && decide (g.nMeridCyl ≤ i)) p ∧
        (R 0 0 * -Real.sin (midAngle g j) + R 1 0 * Real.cos (midAngle g j) = Real.sin ang) ∧
        (R 0 0 * (Real.cos (midAngle g j) * Real.sin (wallLat g i)) + R 1 0 * (Real.sin (midAngle g j) * Real.sin (wallLat g i)) -
          R 2 0 * Real.cos (wallLat g i) = Real.cos ang) := by
  obtain ⟨he, _, _, hdome⟩ := C101_cells.2.2.2 i j ke hi hj hke
  have hmask : g.domeCellMask.getD ((i * g.nCircum + j) * g.nRadEl + ke) false = decide (g.nMeridCyl ≤ i) := by
    rw [Bool.eq_iff_iff, hdome, decide_eq_true_eq]
  have hgood := good_triad h he
  rw [cellFrames_eq, hmask]
  refine ⟨by simp, helicalFrame (cellTriad (g.cellNodes ((i * g.nCircum + j) * g.nRadEl + ke)) g.axis)
    (plyAngle layup (windingAngle g.polarRadius (cellTriad (g.cellNodes ((i * g.nCircum + j) * g.nRadEl + ke)) g.axis).radius)
      (drop && decide (g.nMeridCyl ≤ i)) p), ?_, helical_rotation hgood _, ?_, _, rfl, ?_⟩
  · rw [List.getElem?_map, List.getElem?_range hp]
    rfl
  · rw [C103_triad h hi hj hke]
    rfl
  · rw [C103_triad h hi hj hke]
    have h1 := Real.cos_sq_add_sin_sq (midAngle g j)
    have h2 := Real.cos_sq_add_sin_sq (wallLat g i)
    simp only [helicalFrame, Matrix.cons_val_zero, Matrix.cons_val_one, Matrix.cons_val]
    generalize plyAngle layup (windingAngle g.polarRadius (cellRadius g i ke)) (drop && decide (g.nMeridCyl ≤ i)) p = ang
    constructor
    · linear_combination Real.sin ang * h1
    · linear_combination Real.cos ang * (Real.sin (wallLat g i) ^ 2 * h1 + h2)

/-- **C103** (Clairaut's relation). The winding angle `α` of a cell at distance `r` from the axis satisfies `r sin α = r_p` wherever the
cell is outside the polar opening; inside, the fibre runs along the circle. -/
theorem C103_clairaut {rp r : ℝ} (hp : 0 ≤ rp) (hr : 0 < r) : r * Real.sin (windingAngle rp r) = min rp r ∧
    0 ≤ windingAngle rp r ∧ windingAngle rp r ≤ Real.pi / 2 ∧ 0 ≤ Real.cos (windingAngle rp r) := by
  have h0 : 0 ≤ min (rp / r) 1 := le_min (div_nonneg hp hr.le) zero_le_one
  have e : windingAngle rp r = Real.arcsin (min (rp / r) 1) := by rw [windingAngle, max_eq_right h0]
  rw [e, Real.sin_arcsin (by linarith) (min_le_right _ _)]
  refine ⟨?_, Real.arcsin_nonneg.2 h0, Real.arcsin_le_pi_div_two _, Real.cos_arcsin_nonneg _⟩
  rw [mul_min_of_nonneg _ _ hr.le, mul_div_cancel₀ _ hr.ne', mul_one]

example : 50 * Real.sin (windingAngle 25 50) = 25 := by
  rw [(C103_clairaut (by norm_num) (by norm_num)).1]
  norm_num

/-- **C103** (where Clairaut's relation holds). Every cell is outside the polar opening if the columns are fine enough. -/
theorem C103_outside_opening (h : CopvOk g) (hcol : g.a ≤ (g.a + g.shellT / 2) * Real.cos (Real.pi / (g.nCircum : ℝ))) {i ke : ℕ}
    (hi : i < g.nMerid) (hke : ke < g.nRadEl) :
    cellRadius g i ke * Real.sin (windingAngle g.polarRadius (cellRadius g i ke)) = g.polarRadius := by
  have hR := cellRadius_pos h hi hke
  rw [(C103_clairaut h.polar.le hR).1, min_eq_left]
  have hk1 : ke + 1 < g.nLayers := by simp only [CopvGeom.nLayers, CopvGeom.nRadEl] at *; omega
  have s0 := offset_step h (k := 0) (by simp [CopvGeom.nRadEl])
  rw [if_pos rfl] at s0
  have o0 : offsetOf g 0 = 0 := by simp [offsetOf]
  have o1 := offset_mono h (show 1 ≤ ke + 1 by omega) hk1
  have o2 := offset_nonneg h (show ke < g.nLayers by omega)
  have hlat : ∀ i ≤ g.nMerid, g.polarRadius / g.a ≤ Real.cos (latOf g i) := by
    intro i hi
    obtain ⟨l0, l1⟩ := lat_range h hi
    have hpi := Real.pi_pos
    have hle : latOf g i ≤ Real.arccos (g.polarRadius / g.a) := by
      rw [nMerid_eq] at hi
      unfold latOf
      rw [mul_div_assoc]
      refine mul_le_of_le_one_right (latMax_pos h).1.le (div_le_one_of_le₀ ?_ (by positivity))
      exact_mod_cast (by omega : i - g.nMeridCyl ≤ g.nMeridDome)
    have := Real.cos_le_cos_of_nonneg_of_le_pi l0 (Real.arccos_le_pi _) hle
    rwa [Real.cos_arccos (by have := div_pos h.polar h.a; linarith) ((div_lt_one h.a).2 h.polar_lt).le] at this
  have c0 := hlat i hi.le
  have c1 := hlat (i + 1) (Nat.succ_le_of_lt hi)
  have hρ := cos_pi_div_pos h
  have ha := h.a
  have hq := div_pos h.polar h.a
  have hs := h.shellT
  calc g.polarRadius = g.a * (g.polarRadius / g.a) := by field_simp
    _ ≤ (g.a + g.shellT / 2) * Real.cos (Real.pi / (g.nCircum : ℝ)) * (g.polarRadius / g.a) := mul_le_mul_of_nonneg_right hcol hq.le
    _ = (g.a + g.shellT / 2) * (g.polarRadius / g.a) * Real.cos (Real.pi / (g.nCircum : ℝ)) := by ring
    _ ≤ cellRadius g i ke := by
      unfold cellRadius
      refine mul_le_mul_of_nonneg_right (mul_le_mul (by linarith) (by linarith) hq.le (by linarith)) hρ.le

example : exVessel.a ≤ (exVessel.a + exVessel.shellT / 2) * Real.cos (Real.pi / (exVessel.nCircum : ℝ)) := by
  have h1 := Real.one_sub_sq_div_two_le_cos (x := Real.pi / (exVessel.nCircum : ℝ))
  have h2 := Real.pi_le_four
  have h3 := Real.pi_pos
  simp [exVessel] at *
  nlinarith

/-- **C103** (materials). Without a fill material every cell gets, for each ply, the material rotated by the frame of that ply. With
one, the cells between the shells get the fill material for every ply and the shells are unchanged. -/
theorem C103_materials (plyC : Arr4 ℝ 3) (layup : List (String × ℝ)) (fillC : Option (Arr4 ℝ 3)) (drop : Bool) {i j ke : ℕ}
    (hi : i < g.nMerid) (hj : j < g.nCircum) (hke : ke < g.nRadEl) :
    (g.windingStiffness plyC layup fillC drop).length = g.cells.length ∧
    (g.windingStiffness plyC layup fillC drop)[(i * g.nCircum + j) * g.nRadEl + ke]? =
      some (match fillC with
        | none => (g.cellFrames layup drop ((i * g.nCircum + j) * g.nRadEl + ke)).map fun R => rotate4 plyC R
        | some F => if 1 ≤ ke ∧ ke ≤ g.nFill then List.replicate layup.length F
          else (g.cellFrames layup drop ((i * g.nCircum + j) * g.nRadEl + ke)).map fun R => rotate4 plyC R) := by
  obtain ⟨he, _, hz, _⟩ := C101_cells.2.2.2 i j ke hi hj hke
  refine ⟨by simp [CopvGeom.windingStiffness], ?_⟩
  unfold CopvGeom.windingStiffness
  rw [List.getElem?_map, List.getElem?_range he, Option.map_some]
  congr 1
  unfold CopvGeom.nRadEl at hke
  cases fillC with
  | none => rfl
  | some F =>
    simp only [hz]
    by_cases h1 : 1 ≤ ke ∧ ke ≤ g.nFill
    · rw [if_pos h1, if_neg]
      rw [if_neg (by omega), if_neg (by omega)]
      simp
    · rw [if_neg h1, if_pos]
      by_cases h0 : ke = 0
      · simp [h0]
      · rw [if_neg h0, if_pos (by omega)]
        simp

/-- **C103** (expansion). The same for the thermal expansion, with the same frames. -/
theorem C103_expansion (plyA : Arr2 ℝ 3) (layup : List (String × ℝ)) (fillA : Option (Arr2 ℝ 3)) (drop : Bool) {i j ke : ℕ}
    (hi : i < g.nMerid) (hj : j < g.nCircum) (hke : ke < g.nRadEl) :
    (g.windingCte plyA layup fillA drop).length = g.cells.length ∧
    (g.windingCte plyA layup fillA drop)[(i * g.nCircum + j) * g.nRadEl + ke]? =
      some (match fillA with
        | none => (g.cellFrames layup drop ((i * g.nCircum + j) * g.nRadEl + ke)).map fun R => rotate2 plyA R
        | some F => if 1 ≤ ke ∧ ke ≤ g.nFill then List.replicate layup.length F
          else (g.cellFrames layup drop ((i * g.nCircum + j) * g.nRadEl + ke)).map fun R => rotate2 plyA R) := by
  obtain ⟨he, _, hz, _⟩ := C101_cells.2.2.2 i j ke hi hj hke
  refine ⟨by simp [CopvGeom.windingCte], ?_⟩
  unfold CopvGeom.windingCte
  rw [List.getElem?_map, List.getElem?_range he, Option.map_some]
  congr 1
  unfold CopvGeom.nRadEl at hke
  cases fillA with
  | none => rfl
  | some F =>
    simp only [hz]
    by_cases h1 : 1 ≤ ke ∧ ke ≤ g.nFill
    · rw [if_pos h1, if_neg]
      rw [if_neg (by omega), if_neg (by omega)]
      simp
    · rw [if_neg h1, if_pos]
      by_cases h0 : ke = 0
      · simp [h0]
      · rw [if_neg h0, if_pos (by omega)]
        simp

theorem frames_rotation (h : CopvOk g) (layup : List (String × ℝ)) (drop : Bool) {e : ℕ} (he : e < g.cells.length) :
    ∀ R ∈ g.cellFrames layup drop e, ProperRotation R := by
  intro R hR
  rw [cellFrames_eq] at hR
  obtain ⟨p, _, rfl⟩ := List.mem_map.1 hR
  exact helical_rotation (good_triad h he) _

/-- **C103** (isotropic material). Winding an isotropic material changes nothing: every ply of every cell has the same stiffness and
the same expansion as the material. -/
theorem C103_isotropic (h : CopvOk g) (lam mu al : ℝ) (layup : List (String × ℝ)) (drop : Bool) :
    (∀ plies ∈ g.windingStiffness (lame lam mu) layup none drop, plies = List.replicate layup.length (lame lam mu)) ∧
    ∀ plies ∈ g.windingCte (isotropicCte al) layup none drop, plies = List.replicate layup.length (isotropicCte al) := by
  have hlen : ∀ e, (g.cellFrames layup drop e).length = layup.length := by
    intro e
    rw [cellFrames_eq]
    simp
  constructor
  · intro plies hp
    obtain ⟨e, he, rfl⟩ := List.mem_map.1 hp
    rw [List.eq_replicate_iff]
    refine ⟨by simp [hlen], fun C hC => ?_⟩
    obtain ⟨R, hR, rfl⟩ := List.mem_map.1 hC
    exact lame_rotate _ _ (frames_rotation h layup drop (List.mem_range.1 he) R hR).1
  · intro plies hp
    obtain ⟨e, he, rfl⟩ := List.mem_map.1 hp
    rw [List.eq_replicate_iff]
    refine ⟨by simp [hlen], fun C hC => ?_⟩
    obtain ⟨R, hR, rfl⟩ := List.mem_map.1 hC
    have e2 := rotate2_eye (frames_rotation h layup drop (List.mem_range.1 he) R hR).1
    funext i j
    have := congrFun (congrFun e2 i) j
    simp only [rotate2, isotropicCte] at this ⊢
    rw [← this, Finset.mul_sum]
    refine Finset.sum_congr rfl fun p _ => ?_
    rw [Finset.mul_sum]
    exact Finset.sum_congr rfl fun q _ => by ring

/-- **C103** (fibres). The fibre directions reported for a cell are the first directions of the frames its materials are rotated by;
they are unit vectors, and zero for the fill cells if only the shells are asked for. -/
theorem C103_fibres (h : CopvOk g) (layup : List (String × ℝ)) (drop shellOnly : Bool) {i j ke : ℕ} (hi : i < g.nMerid)
    (hj : j < g.nCircum) (hke : ke < g.nRadEl) :
    ∃ ds, (g.fiberDirections layup drop shellOnly)[(i * g.nCircum + j) * g.nRadEl + ke]? = some ds ∧
      (shellOnly = true ∧ 1 ≤ ke ∧ ke ≤ g.nFill → ds = List.replicate layup.length 0) ∧
      (¬ (shellOnly = true ∧ 1 ≤ ke ∧ ke ≤ g.nFill) →
        ds = (g.cellFrames layup drop ((i * g.nCircum + j) * g.nRadEl + ke)).map (fun R k => R k 0) ∧ ∀ d ∈ ds, normV d = 1) := by
  obtain ⟨he, _, hz, _⟩ := C101_cells.2.2.2 i j ke hi hj hke
  have hlen : ∀ e, (g.cellFrames layup drop e).length = layup.length := by
    intro e
    rw [cellFrames_eq]
    simp
  have hzone : g.cellZone.getD ((i * g.nCircum + j) * g.nRadEl + ke) 0 = 1 ↔ 1 ≤ ke ∧ ke ≤ g.nFill := by
    rw [hz]
    unfold CopvGeom.nRadEl at hke
    by_cases h0 : ke = 0
    · simp [h0]
    · by_cases h1 : ke = g.nFill + 1
      · simp [h1]
      · rw [if_neg h0, if_neg h1]
        simp
        omega
  refine ⟨_, by
    unfold CopvGeom.fiberDirections
    rw [List.getElem?_map, List.getElem?_range he, Option.map_some], ?_, ?_⟩
  · rintro ⟨hs, hf⟩
    rw [List.eq_replicate_iff]
    refine ⟨by simp [hlen], fun d hd => ?_⟩
    obtain ⟨R, _, rfl⟩ := List.mem_map.1 hd
    funext k
    rw [if_pos ⟨hs, hzone.2 hf⟩]
    simp
  · intro hn
    have hneg : ¬ (shellOnly = true ∧ g.cellZone.getD ((i * g.nCircum + j) * g.nRadEl + ke) 0 = 1) := by
      rw [hzone]
      exact hn
    simp only [if_neg hneg, mul_one]
    refine ⟨trivial, fun d hd => ?_⟩
    obtain ⟨R, hR, rfl⟩ := List.mem_map.1 hd
    have := orthogonal_cols (frames_rotation h layup drop he R hR).1 0 0
    rw [Fin.sum_univ_three] at this
    apply norm3_eq zero_le_one
    simp [eye] at this
    linarith

/-- **C103** (reported angles). The reported winding angle, in degrees, is the one used for the helical plies. -/
theorem C103_reported_angle (h : CopvOk g) {i j ke : ℕ} (hi : i < g.nMerid) (hj : j < g.nCircum) (hke : ke < g.nRadEl) :
    g.windingAngleDeg[(i * g.nCircum + j) * g.nRadEl + ke]? =
      some (windingAngle g.polarRadius (cellRadius g i ke) * 180 / Real.pi) := by
  obtain ⟨he, _⟩ := C101_cells.2.2.2 i j ke hi hj hke
  unfold CopvGeom.windingAngleDeg
  rw [List.getElem?_map, List.getElem?_range he, Option.map_some, C103_triad h hi hj hke]

/-! ### Balance on the dome -/

/-- The signs of the hoop plies of a layup when they continue on the dome, in order. -/
def domeSigns (layup : List (String × ℝ)) : List ℤ :=
  ((List.range layup.length).filter fun p => (layup.getD p ("", 0)).1 = "hoop").map fun p =>
    if hoopCount (layup.take p) % 2 = 0 then 1 else -1

theorem domeSigns_concat (layup : List (String × ℝ)) (q : String × ℝ) : domeSigns (layup ++ [q]) =
    domeSigns layup ++ if q.1 = "hoop" then [if hoopCount layup % 2 = 0 then 1 else -1] else [] := by
  unfold domeSigns
  rw [List.length_append, List.length_singleton, List.range_succ, List.filter_append, List.map_append]
  congr 1
  · have e1 : (List.range layup.length).filter (fun p => ((layup ++ [q]).getD p ("", 0)).1 = "hoop") =
        (List.range layup.length).filter fun p => (layup.getD p ("", 0)).1 = "hoop" := by
      apply List.filter_congr
      intro p hp
      rw [List.getD_append _ _ _ _ (List.mem_range.1 hp)]
    rw [e1]
    apply List.map_congr_left
    intro p hp
    have := List.mem_range.1 (List.mem_filter.1 hp).1
    rw [List.take_append_of_le_length this.le]
  · by_cases hq : q.1 = "hoop" <;> simp [hq]

/-- **C103** (balance). On the dome the dropped hoop plies alternate between `+α` and `-α`: their signs sum to zero if their number is
even. -/
theorem C103_dome_balance_partial (layup : List (String × ℝ)) :
    (domeSigns layup).length = hoopCount layup ∧ (domeSigns layup).sum = (hoopCount layup % 2 : ℕ) := by
  induction layup using List.reverseRecOn with
  | nil => simp [domeSigns, hoopCount]
  | append_singleton layup q ih =>
    rw [domeSigns_concat]
    have e : hoopCount (layup ++ [q]) = hoopCount layup + if q.1 = "hoop" then 1 else 0 := by
      simp [hoopCount, List.countP_append, List.countP_cons]
    rw [e]
    by_cases hq : q.1 = "hoop"
    · simp only [hq, if_true, List.length_append, List.sum_append, ih.1, ih.2, List.length_singleton, List.sum_singleton, true_and]
      split <;> omega
    · simp [hq, ih.1, ih.2]

/-- **C103** (balance, refuted). The documentation says that the alternation keeps the dome laminate balanced. With an odd number of hoop
plies it does not: a balanced layup of two helical plies and one hoop ply becomes, on the dome, two plies at `+α` and one at `-α`. -/
theorem C103_dome_unbalanced (h : CopvOk g) {i j ke : ℕ} (hi : i < g.nMerid) (hdome : g.nMeridCyl ≤ i) (hj : j < g.nCircum)
    (hke : ke < g.nRadEl) : ∃ T α, 0 < Real.sin α ∧
    g.cellFrames [("helical", 1), ("helical", -1), ("hoop", 0)] true ((i * g.nCircum + j) * g.nRadEl + ke) =
      [helicalFrame T α, helicalFrame T (-α), helicalFrame T α] := by
  obtain ⟨he, _, _, hd⟩ := C101_cells.2.2.2 i j ke hi hj hke
  have hR := cellRadius_pos h hi hke
  refine ⟨cellTriad (g.cellNodes ((i * g.nCircum + j) * g.nRadEl + ke)) g.axis, windingAngle g.polarRadius (cellRadius g i ke), ?_, ?_⟩
  · have := (C103_clairaut h.polar.le hR).1
    have h2 : 0 < min g.polarRadius (cellRadius g i ke) := lt_min h.polar hR
    rw [← this] at h2
    exact (pos_iff_pos_of_mul_pos h2).1 hR
  · have hm := hd.2 hdome
    rw [cellFrames_eq, hm, C103_triad h hi hj hke]
    simp [List.range_succ, plyAngle, hoopCount]

/-- **C103** (kinds). A kind other than `hoop` is not refused: it is wound as a helical ply. -/
theorem C103_unknown_kind (kind : String) (hk : kind ≠ "hoop") (sign : ℝ) (drop : Bool) (e : ℕ) :
    g.cellFrames [(kind, sign)] drop e = g.cellFrames [("helical", sign)] drop e := by
  rw [cellFrames_eq, cellFrames_eq]
  simp [plyAngle, hk]

/-! ### A closed pole -/

/-- A small vessel closed at the pole. -/
def exClosed : CopvGeom := ⟨1, 1, 1, 1, 0, 4, 1, 1, 0, ![0, 0, 1]⟩

theorem exClosed_det {i j ke : ℕ} (hi : i < exClosed.nMerid) (hj : j < exClosed.nCircum) (hke : ke < exClosed.nRadEl) (x y z : ℝ) :
    (hexJac (exClosed.cellNodes ((i * exClosed.nCircum + j) * exClosed.nRadEl + ke)) (hexGrad x y z)).det =
      ((1 + offsetOf exClosed ke) + z * ((1 + offsetOf exClosed (ke + 1)) - (1 + offsetOf exClosed ke))) *
        (if i = 0 then 1 else 1 - y) * (offsetOf exClosed (ke + 1) - offsetOf exClosed ke) *
        (if i = 0 then 1 else (1 + offsetOf exClosed ke) + z * ((1 + offsetOf exClosed (ke + 1)) - (1 + offsetOf exClosed ke))) := by
  rw [cellNodes_eq (by simp [exClosed]) hi hj hke, wallCell_det]
  have hcol : Real.cos (colAngle exClosed j) * Real.sin (colAngle exClosed (j + 1)) -
      Real.sin (colAngle exClosed j) * Real.cos (colAngle exClosed (j + 1)) = 1 := by
    have e : colAngle exClosed (j + 1) = colAngle exClosed j + Real.pi / 2 := by
      simp [colAngle, exClosed]
      ring
    rw [e, Real.sin_add_pi_div_two, Real.cos_add_pi_div_two]
    nlinarith [Real.cos_sq_add_sin_sq (colAngle exClosed j)]
  rw [hcol]
  have hl0 : latOf exClosed 0 = 0 := by simp [latOf]
  have hl1 : latOf exClosed 1 = 0 := by simp [latOf, exClosed]
  have hl2 : latOf exClosed 2 = Real.pi / 2 := by simp [latOf, exClosed]
  have hb0 : baseOf exClosed 0 = 0 := by simp [baseOf]
  have hb1 : baseOf exClosed 1 = 1 := by simp [baseOf, exClosed]
  have hb2 : baseOf exClosed 2 = 1 := by simp [baseOf, exClosed]
  have ha : exClosed.a = 1 := rfl
  have hm : exClosed.nMerid = 2 := by simp [nMerid_eq, exClosed]
  rw [ha]
  rcases (by omega : i = 0 ∨ i = 1) with rfl | rfl
  · simp [hl0, hl1, hb0, hb1]
  · simp [hl1, hl2, hb1, hb2, -mul_eq_mul_right_iff, -mul_eq_mul_left_iff]
    ring

/-- **C101** (check, refuted). The check is documented to assert that all Jacobian determinants are positive. It looks at the centres of
the cells only: a vessel closed at the pole passes, although the cells at the pole are degenerate, their determinant being zero along
a whole edge. -/
theorem C101_pole_accepted : exClosed.createMesh true = .ok exClosed ∧
    ∃ e < exClosed.cells.length, ∀ x z : ℝ, (hexJac (exClosed.cellNodes e) (hexGrad x 1 z)).det = 0 := by
  have hm : exClosed.nMerid = 2 := by simp [nMerid_eq, exClosed]
  have hc : exClosed.nCircum = 4 := rfl
  have hr : exClosed.nRadEl = 2 := rfl
  constructor
  · unfold CopvGeom.createMesh CopvGeom.buildMeridian
    rw [if_neg (by simp [exClosed])]
    simp only
    have hax : exClosed.axisIsZ := by
      simp [CopvGeom.axisIsZ, exClosed]
      norm_num
    rw [if_neg (not_not.2 hax), if_neg]
    rintro ⟨_, h2⟩
    apply h2
    refine ⟨Or.inr (by simp [exClosed]), fun e he => ?_⟩
    obtain ⟨i, j, ke, hi, hj, hke, rfl⟩ := cell_index he
    rw [CopvGeom.centreDet, exClosed_det hi hj hke]
    rw [hr] at hke
    rcases (by omega : ke = 0 ∨ ke = 1) with rfl | rfl
    · simp [offsetOf, exClosed]
      split <;> norm_num
    · simp [offsetOf, exClosed]
      split <;> norm_num
  · have hcell := (C101_cells (g := exClosed)).2.2.2 1 0 0 (by omega) (by omega) (by omega)
    refine ⟨_, hcell.1, fun x z => ?_⟩
    rw [exClosed_det (by omega) (by omega) (by omega)]
    simp

example : ∃ T α, 0 < Real.sin α ∧
    exVessel.cellFrames [("helical", 1), ("helical", -1), ("hoop", 0)] true ((25 * exVessel.nCircum + 7) * exVessel.nRadEl + 0) =
      [helicalFrame T α, helicalFrame T (-α), helicalFrame T α] :=
  C103_dome_unbalanced exVessel_ok (by simp [nMerid_eq, exVessel]) (by simp [exVessel]) (by simp [exVessel]) (by simp [CopvGeom.nRadEl])

example : 0 < (hexJac (exVessel.cellNodes ((25 * exVessel.nCircum + 41) * exVessel.nRadEl + 5)) (hexGrad 1 1 0)).det :=
  C101_valid_cells exVessel_ok (by simp [nMerid_eq, exVessel]) (by simp [exVessel]) (by simp [CopvGeom.nRadEl, exVessel]) _ _ _
    ⟨by norm_num, by norm_num⟩ ⟨by norm_num, by norm_num⟩

example : (exVessel.windingStiffness (lame 1 1) [("hoop", 1)] (some (lame 2 2)) true)[(25 * exVessel.nCircum + 41) * exVessel.nRadEl + 3]? =
    some [lame 2 2] := by
  rw [(C103_materials _ _ _ _ (by simp [nMerid_eq, exVessel]) (by simp [exVessel]) (by simp [CopvGeom.nRadEl, exVessel])).2]
  simp [exVessel]

end

end Verif.Props
