import Verif.Props.CmgDesign

/-!
# Coarse-grid corrections of the geometric multigrid solver (C157)
-/

namespace Verif.Props
open Verif.Model Verif.Model.Cmg Verif.Lemmas Matrix

/-! ## A cube and its eight halves -/

/-- The values at the corners of the half-size cube `s` of the trilinear field with corner values `u`. -/
noncomputable def childDisp (s : Fin 8) (u : Spec.CubeDisp) : Spec.CubeDisp := fun ac =>
  ∑ b : Fin 8, Spec.hat (corner b).1 ((((corner s).1 : ℝ) + (corner ac.1).1) / 2) *
    Spec.hat (corner b).2.1 ((((corner s).2.1 : ℝ) + (corner ac.1).2.1) / 2) *
    Spec.hat (corner b).2.2 ((((corner s).2.2 : ℝ) + (corner ac.1).2.2) / 2) * u (b, ac.2)

theorem sum_corner (F : ℕ → ℕ → ℕ → ℝ) : ∑ a : Fin 8, F (corner a).1 (corner a).2.1 (corner a).2.2 =
    F 0 0 0 + F 0 0 1 + F 0 1 0 + F 0 1 1 + F 1 0 0 + F 1 0 1 + F 1 1 0 + F 1 1 1 := by
  rw [Fin.sum_univ_eight]
  simp [corner]

theorem hat_refine (b : ℕ) (s x : ℝ) :
    Spec.hat 0 x * Spec.hat b (s / 2) + Spec.hat 1 x * Spec.hat b ((s + 1) / 2) = Spec.hat b ((s + x) / 2) := by
  unfold Spec.hat
  by_cases h : b = 0 <;> simp [h] <;> ring

theorem slope_refine (b : ℕ) (s : ℝ) :
    hatSlope 0 * Spec.hat b (s / 2) + hatSlope 1 * Spec.hat b ((s + 1) / 2) = hatSlope b / 2 := by
  unfold Spec.hat hatSlope
  by_cases h : b = 0 <;> simp [h] <;> ring

theorem grad_child (s : Fin 8) (u : Spec.CubeDisp) (c k : Fin 3) (x y z : ℝ) :
    ∑ a : Fin 8, unitGrad x y z k a * childDisp s u (a, c) =
      (∑ b : Fin 8, unitGrad (((corner s).1 + x) / 2) (((corner s).2.1 + y) / 2) (((corner s).2.2 + z) / 2) k b * u (b, c)) / 2 := by
  unfold childDisp
  simp only [Finset.mul_sum]
  rw [Finset.sum_comm, Finset.sum_div]
  refine Finset.sum_congr rfl fun b _ => ?_
  rcases hsc : corner s with ⟨s1, s2, s3⟩
  rcases hb : corner b with ⟨b1, b2, b3⟩
  have hx := hat_refine b1 s1 x
  have hy := hat_refine b2 s2 y
  have hz := hat_refine b3 s3 z
  have px := slope_refine b1 s1
  have py := slope_refine b2 s2
  have pz := slope_refine b3 s3
  fin_cases k
  · simp only [unitGrad, hb]
    rw [sum_corner fun a1 a2 a3 => hatSlope a1 * Spec.hat a2 y * Spec.hat a3 z *
      (Spec.hat b1 (((s1 : ℝ) + a1) / 2) * Spec.hat b2 (((s2 : ℝ) + a2) / 2) * Spec.hat b3 (((s3 : ℝ) + a3) / 2) * u (b, c))]
    rw [← hy, ← hz]
    simp only [Nat.cast_zero, Nat.cast_one, add_zero]
    linear_combination (u (b, c) * (Spec.hat 0 y * Spec.hat b2 (s2 / 2) + Spec.hat 1 y * Spec.hat b2 ((s2 + 1) / 2)) *
      (Spec.hat 0 z * Spec.hat b3 (s3 / 2) + Spec.hat 1 z * Spec.hat b3 ((s3 + 1) / 2))) * px
  · simp only [unitGrad, hb]
    rw [sum_corner fun a1 a2 a3 => Spec.hat a1 x * hatSlope a2 * Spec.hat a3 z *
      (Spec.hat b1 (((s1 : ℝ) + a1) / 2) * Spec.hat b2 (((s2 : ℝ) + a2) / 2) * Spec.hat b3 (((s3 : ℝ) + a3) / 2) * u (b, c))]
    rw [← hx, ← hz]
    simp only [Nat.cast_zero, Nat.cast_one, add_zero]
    linear_combination (u (b, c) * (Spec.hat 0 x * Spec.hat b1 (s1 / 2) + Spec.hat 1 x * Spec.hat b1 ((s1 + 1) / 2)) *
      (Spec.hat 0 z * Spec.hat b3 (s3 / 2) + Spec.hat 1 z * Spec.hat b3 ((s3 + 1) / 2))) * py
  · simp only [unitGrad, hb]
    rw [sum_corner fun a1 a2 a3 => Spec.hat a1 x * Spec.hat a2 y * hatSlope a3 *
      (Spec.hat b1 (((s1 : ℝ) + a1) / 2) * Spec.hat b2 (((s2 : ℝ) + a2) / 2) * Spec.hat b3 (((s3 : ℝ) + a3) / 2) * u (b, c))]
    rw [← hx, ← hy]
    simp only [Nat.cast_zero, Nat.cast_one, add_zero]
    linear_combination (u (b, c) * (Spec.hat 0 x * Spec.hat b1 (s1 / 2) + Spec.hat 1 x * Spec.hat b1 ((s1 + 1) / 2)) *
      (Spec.hat 0 y * Spec.hat b2 (s2 / 2) + Spec.hat 1 y * Spec.hat b2 ((s2 + 1) / 2))) * pz

theorem strain_child (s : Fin 8) (u : Spec.CubeDisp) (x y z : ℝ) :
    unitStrain (childDisp s u) x y z =
      (1 / 2 : ℝ) • unitStrain u (((corner s).1 + x) / 2) (((corner s).2.1 + y) / 2) (((corner s).2.2 + z) / 2) := by
  rw [unitStrain_rows, unitStrain_rows]
  simp only [grad_child]
  ext r
  fin_cases r <;> simp <;> ring

theorem work_child (nu E : ℝ) (s : Fin 8) (u v : Spec.CubeDisp) (x y z : ℝ) :
    unitWork nu E (childDisp s u) (childDisp s v) x y z =
      unitWork nu E u v (((corner s).1 + x) / 2) (((corner s).2.1 + y) / 2) (((corner s).2.2 + z) / 2) / 4 := by
  unfold unitWork
  rw [strain_child, strain_child, Matrix.mulVec_smul, smul_dotProduct, dotProduct_smul]
  simp only [smul_eq_mul]
  ring

/-- The sum over the Gauss points of the two halves of the interval. -/
noncomputable def halves (f : ℝ → ℝ) : ℝ := f ((0 + gLo) / 2) + f ((0 + gHi) / 2) + f ((1 + gLo) / 2) + f ((1 + gHi) / 2)

theorem halves_quad {f : ℝ → ℝ} (hf : IsQuad f) : halves f = 4 * ((f gLo + f gHi) / 2) := by
  obtain ⟨a, b, c, h⟩ := hf
  have hs : (1 / Real.sqrt 3) ^ 2 = 1 / 3 := by
    rw [div_pow, Real.sq_sqrt (by norm_num)]; norm_num
  unfold halves
  simp only [h]
  unfold gLo gHi
  linear_combination (-3 * c / 4) * hs

/-- The energy of a trilinear displacement, summed over the eight half-size cubes as unit cubes, is twice that of the whole. -/
theorem refine_form (nu E : ℝ) (u v : Spec.CubeDisp) :
    ∑ s : Fin 8, childDisp s u ⬝ᵥ (makeKE nu E *ᵥ childDisp s v) = 2 * (u ⬝ᵥ (makeKE nu E *ᵥ v)) := by
  obtain ⟨hx, hy, hz⟩ := unitWork_quad nu E u v
  set W := unitWork nu E u v with hW
  have h3 : ∀ x y, halves (fun z => W x y z) = 4 * ((W x y gLo + W x y gHi) / 2) := fun x y => halves_quad (hz x y)
  have h2 : ∀ x, halves (fun y => (W x y gLo + W x y gHi) / 2) =
      4 * (((W x gLo gLo + W x gLo gHi) / 2 + (W x gHi gLo + W x gHi gHi) / 2) / 2) :=
    fun x => halves_quad ((hy x gLo).half (hy x gHi))
  have h1 := halves_quad (((hx gLo gLo).half (hx gLo gHi)).half ((hx gHi gLo).half (hx gHi gHi)))
  have total : halves (fun x => halves fun y => halves fun z => W x y z) =
      64 * (1 / 8 * (W gLo gLo gLo + W gLo gLo gHi + W gLo gHi gLo + W gLo gHi gHi + W gHi gLo gLo + W gHi gLo gHi +
        W gHi gHi gLo + W gHi gHi gHi)) := by
    simp only [h3]
    have e2 : ∀ x, halves (fun y => 4 * ((W x y gLo + W x y gHi) / 2)) = 4 * halves (fun y => (W x y gLo + W x y gHi) / 2) := by
      intro x; unfold halves; ring
    simp only [e2, h2]
    have e1 : ∀ f : ℝ → ℝ, halves (fun x => 4 * (4 * f x)) = 16 * halves f := by
      intro f; unfold halves; ring
    rw [e1, h1]
    ring
  rw [makeKE_form nu E u v]
  simp only [makeKE_form nu E (childDisp _ u), work_child]
  rw [← hW]
  rw [sum_corner fun s1 s2 s3 => 1 / 8 * (W ((s1 + gLo) / 2) ((s2 + gLo) / 2) ((s3 + gLo) / 2) / 4 +
    W ((s1 + gLo) / 2) ((s2 + gLo) / 2) ((s3 + gHi) / 2) / 4 + W ((s1 + gLo) / 2) ((s2 + gHi) / 2) ((s3 + gLo) / 2) / 4 +
    W ((s1 + gLo) / 2) ((s2 + gHi) / 2) ((s3 + gHi) / 2) / 4 + W ((s1 + gHi) / 2) ((s2 + gLo) / 2) ((s3 + gLo) / 2) / 4 +
    W ((s1 + gHi) / 2) ((s2 + gLo) / 2) ((s3 + gHi) / 2) / 4 + W ((s1 + gHi) / 2) ((s2 + gHi) / 2) ((s3 + gLo) / 2) / 4 +
    W ((s1 + gHi) / 2) ((s2 + gHi) / 2) ((s3 + gHi) / 2) / 4)]
  unfold halves at total
  simp only [Nat.cast_zero, Nat.cast_one]
  linarith

/-! ## Prolongation to the corners of a cell -/

theorem axis_refine (X t : ℕ) (ht : t ≤ 2) (φ : ℕ → ℝ) :
    ((axisParents (2 * X + t)).map fun x => x.2 * φ x.1).sum =
      Spec.hat 0 ((t : ℝ) / 2) * φ X + Spec.hat 1 ((t : ℝ) / 2) * φ (X + 1) := by
  interval_cases t
  · simp [axisParents, Spec.hat]
  · have h1 : (2 * X + 1) / 2 = X := by omega
    have h2 : (2 * X + 1) % 2 = 1 := by omega
    simp [axisParents, Spec.hat, h1, h2]
    left; norm_num
  · have h1 : (2 * X + 2) / 2 = X + 1 := by omega
    have h2 : (2 * X + 2) % 2 = 0 := by omega
    simp [axisParents, Spec.hat]

theorem transferRow_corner (g : Grid) (cells : List ℕ) (hc : ∀ e ∈ cells, e < g.numCells) (n : ℕ)
    (hn : n ∈ (mkLevel g cells).nodes) (X Y Z t1 t2 t3 : ℕ) (h1 : t1 ≤ 2) (h2 : t2 ≤ 2) (h3 : t3 ≤ 2)
    (hijk : g.nodeIjk n = (2 * X + t1, 2 * Y + t2, 2 * Z + t3)) (e : ℕ → ℝ) :
    let coarse := mkLevel (coarseGrid g) (unique (cells.map (parentCell g)))
    ((transferRow (mkLevel g cells) coarse n).map fun q => q.2 * e q.1).sum =
      ∑ b : Fin 8, Spec.hat (corner b).1 ((t1 : ℝ) / 2) * Spec.hat (corner b).2.1 ((t2 : ℝ) / 2) *
        Spec.hat (corner b).2.2 ((t3 : ℝ) / 2) *
        e (searchsorted coarse.nodes (coarse.g.nodeId (X + (corner b).1, Y + (corner b).2.1, Z + (corner b).2.2))) := by
  intro coarse
  have hu : coarse.nodes.Pairwise (· < ·) := unique_lt _
  have hv : ∀ x ∈ axisParents (g.nodeIjk n).1, ∀ y ∈ axisParents (g.nodeIjk n).2.1, ∀ z ∈ axisParents (g.nodeIjk n).2.2,
      (transferEntry coarse (x.1, y.1, z.1) (x.2 * y.2 * z.2)).2 *
        e (transferEntry coarse (x.1, y.1, z.1) (x.2 * y.2 * z.2)).1 =
      x.2 * (y.2 * (z.2 * e (searchsorted coarse.nodes (coarse.g.nodeId (x.1, y.1, z.1))))) := by
    intro x hx y hy z hz
    obtain ⟨h1, h2⟩ := transferEntry_spec g cells hc n hn hx hy hz
    by_cases hw : (transferEntry coarse (x.1, y.1, z.1) (x.2 * y.2 * z.2)).2 = 0
    · rw [hw, zero_mul]
      have hw' : x.2 * y.2 * z.2 = 0 := h1 ▸ hw
      linear_combination (-e (searchsorted coarse.nodes (coarse.g.nodeId (x.1, y.1, z.1)))) * hw'
    · obtain ⟨hlt, hij⟩ := h2 hw
      set q := transferEntry coarse (x.1, y.1, z.1) (x.2 * y.2 * z.2) with hq
      have hm : coarse.nodes.getD q.1 0 ∈ coarse.nodes := by
        rw [List.getD_eq_getElem _ _ hlt]; exact List.getElem_mem hlt
      have hid : coarse.g.nodeId (x.1, y.1, z.1) = coarse.nodes.getD q.1 0 := by
        obtain ⟨f, hf, hfn⟩ := (mkLevel_nodes_mem _ _ _).mp hm
        rw [← mem_cornerNodes, cornerNodes_eq, List.mem_map] at hfn
        obtain ⟨a, _, ha⟩ := hfn
        have hflt : f < (coarseGrid g).numCells := by
          rw [mem_unique, List.mem_map] at hf
          obtain ⟨e', he', rfl⟩ := hf
          exact parentCell_lt g e' (hc e' he')
        have h5 := cell_node_ijk (coarseGrid g) f hflt a
        rw [ha] at h5
        have h6 : (x.1, y.1, z.1) = (((coarseGrid g).cellIjk f).1 + (corner a).1, ((coarseGrid g).cellIjk f).2.1 + (corner a).2.1,
          ((coarseGrid g).cellIjk f).2.2 + (corner a).2.2) := hij.symm.trans h5
        rw [h6]
        exact ha
      have hpos : searchsorted coarse.nodes (coarse.g.nodeId (x.1, y.1, z.1)) = q.1 := by
        rw [hid]
        obtain ⟨k1, k2⟩ := searchsorted_mem hu hm
        have hnd : coarse.nodes.Nodup := hu.imp Nat.ne_of_lt
        rw [List.getD_eq_getElem _ _ k1] at k2
        conv_rhs at k2 => rw [List.getD_eq_getElem _ _ hlt]
        exact (hnd.getElem_inj_iff).mp k2
      rw [hpos, h1]
      ring
  have e1 : ((transferRow (mkLevel g cells) coarse n).map fun q => q.2 * e q.1).sum =
      ((axisParents (g.nodeIjk n).1).map fun x => x.2 * ((axisParents (g.nodeIjk n).2.1).map fun y => y.2 *
        ((axisParents (g.nodeIjk n).2.2).map fun z => z.2 * e (searchsorted coarse.nodes (coarse.g.nodeId (x.1, y.1, z.1)))).sum).sum).sum := by
    unfold transferRow
    simp only [List.map_flatMap, List.map_map, sum_flatMap_real, ← List.sum_map_mul_left]
    congr 1
    refine List.map_congr_left fun x hx => ?_
    congr 1
    refine List.map_congr_left fun y hy => ?_
    congr 1
    refine List.map_congr_left fun z hz => ?_
    exact hv x hx y hy z hz
  rw [e1, hijk]
  simp only
  have e2 : ∀ x y, ((axisParents (2 * Z + t3)).map fun z => z.2 * e (searchsorted coarse.nodes (coarse.g.nodeId (x, y, z.1)))).sum = _ :=
    fun x y => axis_refine Z t3 h3 fun z => e (searchsorted coarse.nodes (coarse.g.nodeId (x, y, z)))
  simp only [e2]
  have e3 : ∀ x, ((axisParents (2 * Y + t2)).map fun y => y.2 *
      (Spec.hat 0 ((t3 : ℝ) / 2) * e (searchsorted coarse.nodes (coarse.g.nodeId (x, y.1, Z))) +
        Spec.hat 1 ((t3 : ℝ) / 2) * e (searchsorted coarse.nodes (coarse.g.nodeId (x, y.1, Z + 1))))).sum = _ :=
    fun x => axis_refine Y t2 h2 fun y => Spec.hat 0 ((t3 : ℝ) / 2) * e (searchsorted coarse.nodes (coarse.g.nodeId (x, y, Z))) +
        Spec.hat 1 ((t3 : ℝ) / 2) * e (searchsorted coarse.nodes (coarse.g.nodeId (x, y, Z + 1)))
  simp only [e3]
  rw [axis_refine X t1 h1 fun x => Spec.hat 0 ((t2 : ℝ) / 2) *
      (Spec.hat 0 ((t3 : ℝ) / 2) * e (searchsorted coarse.nodes (coarse.g.nodeId (x, Y, Z))) +
        Spec.hat 1 ((t3 : ℝ) / 2) * e (searchsorted coarse.nodes (coarse.g.nodeId (x, Y, Z + 1)))) +
      Spec.hat 1 ((t2 : ℝ) / 2) *
      (Spec.hat 0 ((t3 : ℝ) / 2) * e (searchsorted coarse.nodes (coarse.g.nodeId (x, Y + 1, Z))) +
        Spec.hat 1 ((t3 : ℝ) / 2) * e (searchsorted coarse.nodes (coarse.g.nodeId (x, Y + 1, Z + 1))))]
  rw [sum_corner fun b1 b2 b3 => Spec.hat b1 ((t1 : ℝ) / 2) * Spec.hat b2 ((t2 : ℝ) / 2) * Spec.hat b3 ((t3 : ℝ) / 2) *
    e (searchsorted coarse.nodes (coarse.g.nodeId (X + b1, Y + b2, Z + b3)))]
  simp only [add_zero]
  ring

namespace Spec

/-- A band of whole blocks: no cell is listed twice, every cell of the next level covers eight cells of the band, and these have the
same density. -/
structure WholeBlocks (fine coarse : Level) (rho : List ℝ) : Prop where
  nodup : fine.cells.Nodup
  eight : ∀ k < coarse.cells.length, (children fine coarse k).card = 8
  same : ∀ k < coarse.cells.length, ∀ i ∈ children fine coarse k, ∀ j ∈ children fine coarse k, rho.getD i 0 = rho.getD j 0

/-- Nodes that are fixed on a level take their values from fixed nodes of the next. -/
def FixedAlike (l lc : SLevel) : Prop := ∀ n, ¬ l.free n → ∀ q ∈ l.P n, q.2 ≠ 0 → ¬ lc.free q.1

end Spec

/-- The octant of a cell in the cell above it. -/
def octant (g : Grid) (e : ℕ) : Fin 8 :=
  ⟨(g.cellIjk e).1 % 2 * 4 + (g.cellIjk e).2.1 % 2 * 2 + (g.cellIjk e).2.2 % 2, by omega⟩

theorem corner_octant (g : Grid) (e : ℕ) :
    corner (octant g e) = ((g.cellIjk e).1 % 2, (g.cellIjk e).2.1 % 2, (g.cellIjk e).2.2 % 2) := by
  simp only [corner, octant, Prod.mk.injEq]
  omega

/-- Interpolated to a cell of a block, a coarse displacement is that of the half-size cube. -/
theorem prolong_cell (pred : FixedPred) (g : Grid) (cs : List ℕ) (hcs : ∀ e ∈ cs, e < g.numCells) (E Ec : List ℝ)
    (next : Option Level) (hfix : Spec.FixedAlike
      (toSLevel pred (mkLevel g cs) (some (mkLevel (coarseGrid g) (unique (cs.map (parentCell g))))) E)
      (toSLevel pred (mkLevel (coarseGrid g) (unique (cs.map (parentCell g)))) next Ec))
    (e : Vec) (he : mask (toSLevel pred (mkLevel (coarseGrid g) (unique (cs.map (parentCell g)))) next Ec) e = e)
    (k i : ℕ) (hk : k < (unique (cs.map (parentCell g))).length)
    (hi : i ∈ Spec.children (mkLevel g cs) (mkLevel (coarseGrid g) (unique (cs.map (parentCell g)))) k) :
    (fun ac : Fin 8 × Fin 3 => prolongTo (toSLevel pred (mkLevel g cs) (some (mkLevel (coarseGrid g) (unique (cs.map (parentCell g))))) E) e
      (cornersOf (mkLevel g cs) i ac.1) ac.2) =
    childDisp (octant g (cs.getD i 0)) fun bc : Fin 8 × Fin 3 =>
      e (cornersOf (mkLevel (coarseGrid g) (unique (cs.map (parentCell g)))) k bc.1) bc.2 := by
  set coarse := mkLevel (coarseGrid g) (unique (cs.map (parentCell g))) with hcoarse
  set l := toSLevel pred (mkLevel g cs) (some coarse) E with hl
  simp only [Spec.children, Finset.mem_filter, Finset.mem_range] at hi
  obtain ⟨hi, hpar⟩ := hi
  have hi' : i < cs.length := hi
  change ((g.cellIjk (cs.getD i 0)).1 / 2, (g.cellIjk (cs.getD i 0)).2.1 / 2, (g.cellIjk (cs.getD i 0)).2.2 / 2) =
      (coarseGrid g).cellIjk ((unique (cs.map (parentCell g))).getD k 0) at hpar
  have hcell : cs.getD i 0 < g.numCells := by
    rw [List.getD_eq_getElem _ _ hi']; exact hcs _ (List.getElem_mem hi')
  ext ⟨a, c⟩
  simp only
  have hids : cornersOf (mkLevel g cs) i a = searchsorted (mkLevel g cs).nodes
      (g.nodeId ((g.cellIjk (cs.getD i 0)).1 + (corner a).1, (g.cellIjk (cs.getD i 0)).2.1 + (corner a).2.1,
        (g.cellIjk (cs.getD i 0)).2.2 + (corner a).2.2)) := by
    rw [List.getD_eq_getElem _ _ hi']
    exact mkLevel_ncid g cs i hi' a
  have hcids : ∀ b, cornersOf coarse k b = searchsorted coarse.nodes
      ((coarseGrid g).nodeId ((g.cellIjk (cs.getD i 0)).1 / 2 + (corner b).1, (g.cellIjk (cs.getD i 0)).2.1 / 2 + (corner b).2.1,
        (g.cellIjk (cs.getD i 0)).2.2 / 2 + (corner b).2.2)) := by
    intro b
    have := mkLevel_ncid (coarseGrid g) (unique (cs.map (parentCell g))) k hk b
    rw [← List.getD_eq_getElem _ 0 hk, ← hpar] at this
    exact this
  set n := g.nodeId ((g.cellIjk (cs.getD i 0)).1 + (corner a).1, (g.cellIjk (cs.getD i 0)).2.1 + (corner a).2.1,
        (g.cellIjk (cs.getD i 0)).2.2 + (corner a).2.2) with hn
  have hnmem : n ∈ (mkLevel g cs).nodes := by
    refine (mkLevel_nodes_mem g cs n).mpr ⟨cs.getD i 0, ?_, corner_mem g _ a⟩
    rw [List.getD_eq_getElem _ _ hi']; exact List.getElem_mem hi'
  obtain ⟨m1, m2⟩ := searchsorted_mem (show (mkLevel g cs).nodes.Pairwise (· < ·) from unique_lt _) hnmem
  have hP : l.P (cornersOf (mkLevel g cs) i a) = transferRow (mkLevel g cs) coarse n := by
    rw [hids]
    show (if searchsorted (mkLevel g cs).nodes n < (mkLevel g cs).nodes.length then _ else _) = _
    rw [if_pos m1, m2]
  have hmask : prolongTo l e (cornersOf (mkLevel g cs) i a) c =
      ((transferRow (mkLevel g cs) coarse n).map fun q => q.2 * e q.1 c).sum := by
    unfold prolongTo mask
    by_cases hf : l.free (cornersOf (mkLevel g cs) i a)
    · rw [if_pos hf]
      show ((l.P (cornersOf (mkLevel g cs) i a)).map fun p => p.2 * e p.1 c).sum = _
      rw [hP]
    · rw [if_neg hf, ← hP]
      symm
      apply List.sum_eq_zero
      intro x hx
      obtain ⟨q, hq, rfl⟩ := List.mem_map.mp hx
      by_cases hq0 : q.2 = 0
      · rw [hq0, zero_mul]
      · rw [mask_fixed he (hfix _ hf q hq hq0) c, mul_zero]
  have hijk := cell_node_ijk g _ hcell a
  rw [← hn] at hijk
  obtain ⟨c1, c2, c3⟩ := corner_le a
  have hsplit : ∀ x d : ℕ, x + d = 2 * (x / 2) + (x % 2 + d) := fun x d => by omega
  rw [hsplit, hsplit (g.cellIjk (cs.getD i 0)).2.1, hsplit (g.cellIjk (cs.getD i 0)).2.2] at hijk
  rw [hmask, transferRow_corner g cs hcs n hnmem _ _ _ _ _ _ (by omega) (by omega) (by omega) hijk fun m => e m c]
  unfold childDisp
  refine Finset.sum_congr rfl fun b _ => ?_
  rw [corner_octant]
  simp only [hcids b]
  push_cast
  rfl

/-! ## Energies of two levels -/

theorem children_iff (g : Grid) (cs : List ℕ) (hcs : ∀ e ∈ cs, e < g.numCells) (k : ℕ)
    (hk : k < (unique (cs.map (parentCell g))).length) (i : ℕ) (hi : i < cs.length) :
    searchsorted (unique (cs.map (parentCell g))) (parentCell g (cs.getD i 0)) = k ↔
      i ∈ Spec.children (mkLevel g cs) (mkLevel (coarseGrid g) (unique (cs.map (parentCell g)))) k := by
  set up := Model.unique (cs.map (parentCell g)) with hup
  have hlt : up.Pairwise (· < ·) := unique_lt (cs.map (parentCell g))
  have hmem : parentCell g (cs.getD i 0) ∈ up := by
    rw [hup, mem_unique, List.getD_eq_getElem _ _ hi]
    exact List.mem_map_of_mem (List.getElem_mem hi)
  have hcell : cs.getD i 0 < g.numCells := by
    rw [List.getD_eq_getElem _ _ hi]; exact hcs _ (List.getElem_mem hi)
  obtain ⟨s1, s2⟩ := searchsorted_mem hlt hmem
  have hnd : up.Nodup := hlt.imp Nat.ne_of_lt
  have hiff : searchsorted up (parentCell g (cs.getD i 0)) = k ↔ parentCell g (cs.getD i 0) = up.getD k 0 := by
    constructor
    · intro h
      rw [← h, s2]
    · intro h
      rw [List.getD_eq_getElem _ _ s1] at s2
      rw [List.getD_eq_getElem _ _ hk] at h
      exact (hnd.getElem_inj_iff (hi := s1) (hj := hk)).mp (s2.trans h)
  rw [hiff]
  simp only [Spec.children, Finset.mem_filter, Finset.mem_range]
  constructor
  · intro h
    refine ⟨hi, ?_⟩
    show _ = (coarseGrid g).cellIjk (up.getD k 0)
    rw [← h, parentCell_ijk g _ hcell]
    rfl
  · rintro ⟨_, h⟩
    have h' : ((g.cellIjk (cs.getD i 0)).1 / 2, (g.cellIjk (cs.getD i 0)).2.1 / 2, (g.cellIjk (cs.getD i 0)).2.2 / 2) =
      (coarseGrid g).cellIjk (up.getD k 0) := h
    rw [parentCell_eq, h']
    have hu : up.getD k 0 < (coarseGrid g).numCells := by
      have : up.getD k 0 ∈ up := by rw [List.getD_eq_getElem _ _ hk]; exact List.getElem_mem hk
      rw [hup, mem_unique, List.mem_map] at this
      obtain ⟨e, he, h⟩ := this
      rw [← hup] at h
      rw [← h]
      exact parentCell_lt g e (hcs e he)
    exact (cellId_cellIjk _ _ hu).1

theorem octant_univ (g : Grid) (cs : List ℕ) (hcs : ∀ e ∈ cs, e < g.numCells) (hnd : cs.Nodup) (coarse : Level) (k : ℕ)
    (h8 : (Spec.children (mkLevel g cs) coarse k).card = 8) (F : Fin 8 → ℝ) :
    ∑ i ∈ Spec.children (mkLevel g cs) coarse k, F (octant g (cs.getD i 0)) = ∑ s, F s := by
  have hinj : Set.InjOn (fun i => octant g (cs.getD i 0)) (Spec.children (mkLevel g cs) coarse k) := by
    intro i hi j hj hij
    simp only [Spec.children, Finset.coe_filter, Finset.mem_range, Set.mem_ofPred_eq] at hi hj
    have hi1 : i < cs.length := hi.1
    have hj1 : j < cs.length := hj.1
    have hpar := hi.2.trans hj.2.symm
    change ((g.cellIjk (cs.getD i 0)).1 / 2, (g.cellIjk (cs.getD i 0)).2.1 / 2, (g.cellIjk (cs.getD i 0)).2.2 / 2) =
      ((g.cellIjk (cs.getD j 0)).1 / 2, (g.cellIjk (cs.getD j 0)).2.1 / 2, (g.cellIjk (cs.getD j 0)).2.2 / 2) at hpar
    have hoct := congrArg corner hij
    simp only [corner_octant, Prod.mk.injEq] at hoct hpar
    have hijk : g.cellIjk (cs.getD i 0) = g.cellIjk (cs.getD j 0) := by
      refine Prod.ext ?_ (Prod.ext ?_ ?_) <;> omega
    have hci : cs.getD i 0 < g.numCells := by rw [List.getD_eq_getElem _ _ hi1]; exact hcs _ (List.getElem_mem hi1)
    have hcj : cs.getD j 0 < g.numCells := by rw [List.getD_eq_getElem _ _ hj1]; exact hcs _ (List.getElem_mem hj1)
    have heq : cs.getD i 0 = cs.getD j 0 := by
      rw [← (cellId_cellIjk g _ hci).1, hijk, (cellId_cellIjk g _ hcj).1]
    rw [List.getD_eq_getElem _ _ hi1, List.getD_eq_getElem _ _ hj1] at heq
    exact (hnd.getElem_inj_iff).mp heq
  rw [← Finset.sum_image (f := F) (g := fun i => octant g (cs.getD i 0)) hinj]
  have : (Spec.children (mkLevel g cs) coarse k).image (fun i => octant g (cs.getD i 0)) = Finset.univ := by
    apply Finset.eq_univ_of_card
    rw [Finset.card_image_of_injOn hinj, h8]
    simp
  rw [this]

/-- C157: on a band of whole blocks of equal density, a coarse displacement interpolated to the finer level has exactly twice the
energy it has on the coarse level: the coarse stiffness is half of what it should be. -/
theorem C157_energy_halved (nu : ℝ) (L : ℕ) (g : Grid) (cells : List ℕ) (hc : ∀ e ∈ cells, e < g.numCells) (l : ℕ)
    (fine coarse : Level) (h1 : (build L g cells)[l]? = some fine) (h2 : (build L g cells)[l + 1]? = some coarse)
    (pred : FixedPred) (next : Option Level) (Emin E0 p : ℝ) (rho : List ℝ) (hlen : rho.length = fine.cells.length)
    (hb : Spec.WholeBlocks fine coarse rho)
    (hfix : Spec.FixedAlike (toSLevel pred fine (some coarse) (rho.map (youngs Emin E0 p)))
      (toSLevel pred coarse next ((coarsenRho fine coarse rho).map (youngs Emin E0 p))))
    (e e' : Vec) (he : ∀ n, ¬ (toSLevel pred coarse next ((coarsenRho fine coarse rho).map (youngs Emin E0 p))).free n → ∀ c, e n c = 0)
    (he' : ∀ n, ¬ (toSLevel pred coarse next ((coarsenRho fine coarse rho).map (youngs Emin E0 p))).free n → ∀ c, e' n c = 0) :
    Spec.levelForm (makeKE nu 1) (toSLevel pred fine (some coarse) (rho.map (youngs Emin E0 p))).els
        (prolongTo (toSLevel pred fine (some coarse) (rho.map (youngs Emin E0 p))) e)
        (prolongTo (toSLevel pred fine (some coarse) (rho.map (youngs Emin E0 p))) e') =
      2 * Spec.levelForm (makeKE nu 1) (toSLevel pred coarse next ((coarsenRho fine coarse rho).map (youngs Emin E0 p))).els e e' := by
  obtain ⟨hcl, hav⟩ := C116_average L g cells hc l fine coarse h1 h2 rho hlen
  have em := mask_of_fixed he
  have em' := mask_of_fixed he'
  obtain ⟨g', cs, hcs, rfl, rfl⟩ := buildFrom_pair L g (cells.insertionSort (· ≤ ·))
    (fun e he => hc e ((mem_sortedCells cells e).mp he)) l fine coarse h1 h2
  set up := Model.unique (cs.map (parentCell g')) with hup
  set coarse := mkLevel (coarseGrid g') up with hcoarse
  have hlen' : rho.length = cs.length := hlen
  have hncid : (mkLevel g' cs).ncid.length = cs.length := by simp [mkLevel]
  have hncid' : coarse.ncid.length = up.length := by simp [hcoarse, mkLevel]
  have hcl' : (coarsenRho (mkLevel g' cs) coarse rho).length = up.length := hcl
  rw [levelForm_range pred _ _ _ (by rw [List.length_map, hncid, hlen']),
    levelForm_range pred _ _ _ (by rw [List.length_map, hncid', hcl']), List.length_map, List.length_map, hlen', hcl']
  rw [← Finset.sum_fiberwise_of_maps_to (s := Finset.range cs.length) (t := Finset.range up.length)
    (g := fun i => searchsorted up (parentCell g' (cs.getD i 0))) (by
      intro i hi
      rw [Finset.mem_range] at hi ⊢
      refine (searchsorted_mem (unique_lt (cs.map (parentCell g'))) ?_).1
      rw [mem_unique, List.getD_eq_getElem _ _ hi]
      exact List.mem_map_of_mem (List.getElem_mem hi)), Finset.mul_sum]
  refine Finset.sum_congr rfl fun k hk => ?_
  rw [Finset.mem_range] at hk
  have hfib : (Finset.range cs.length).filter (fun i => searchsorted up (parentCell g' (cs.getD i 0)) = k) =
      Spec.children (mkLevel g' cs) coarse k := by
    ext i
    rw [Finset.mem_filter, Finset.mem_range]
    constructor
    · rintro ⟨hi, h⟩; exact (children_iff g' cs hcs k hk i hi).mp h
    · intro h
      have hi : i < cs.length := by
        simp only [Spec.children, Finset.mem_filter, Finset.mem_range] at h; exact h.1
      exact ⟨hi, (children_iff g' cs hcs k hk i hi).mpr h⟩
  rw [hfib]
  obtain ⟨_, hmean⟩ := hav k hk
  have hE : ∀ i ∈ Spec.children (mkLevel g' cs) coarse k, (rho.map (youngs Emin E0 p)).getD i 0 =
      ((coarsenRho (mkLevel g' cs) coarse rho).map (youngs Emin E0 p)).getD k 0 := by
    intro i hi
    have hil : i < rho.length := by
      simp only [Spec.children, Finset.mem_filter, Finset.mem_range] at hi; exact hlen ▸ hi.1
    have hval : (coarsenRho (mkLevel g' cs) coarse rho).getD k 0 = rho.getD i 0 := by
      rw [hmean, Finset.sum_congr rfl fun j hj => hb.same k hk j hj i hi, Finset.sum_const, hb.eight k hk]
      simp
    rw [List.getD_eq_getElem _ _ (by rw [List.length_map]; exact hil), List.getElem_map,
      List.getD_eq_getElem _ _ (by rw [List.length_map, hcl']; exact hk), List.getElem_map,
      ← List.getD_eq_getElem rho 0 hil, ← List.getD_eq_getElem _ 0 (by rw [hcl']; exact hk), hval]
  have hterm : ∀ i ∈ Spec.children (mkLevel g' cs) coarse k,
      (rho.map (youngs Emin E0 p)).getD i 0 * cellForm (makeKE nu 1) (cornersOf (mkLevel g' cs) i)
        (prolongTo (toSLevel pred (mkLevel g' cs) (some coarse) (rho.map (youngs Emin E0 p))) e)
        (prolongTo (toSLevel pred (mkLevel g' cs) (some coarse) (rho.map (youngs Emin E0 p))) e') =
      (fun s => ((coarsenRho (mkLevel g' cs) coarse rho).map (youngs Emin E0 p)).getD k 0 *
        (childDisp s (fun bc : Fin 8 × Fin 3 => e (cornersOf coarse k bc.1) bc.2) ⬝ᵥ
          (makeKE nu 1 *ᵥ childDisp s (fun bc : Fin 8 × Fin 3 => e' (cornersOf coarse k bc.1) bc.2)))) (octant g' (cs.getD i 0)) := by
    intro i hi
    rw [hE i hi, cellForm_eq, prolong_cell pred g' cs hcs _ _ next hfix e em k i hk hi,
      prolong_cell pred g' cs hcs _ _ next hfix e' em' k i hk hi]
  refine ((Finset.sum_congr rfl hterm).trans (octant_univ g' cs hcs hb.nodup coarse k (hb.eight k hk)
    (fun s => ((coarsenRho (mkLevel g' cs) coarse rho).map (youngs Emin E0 p)).getD k 0 *
        (childDisp s (fun bc : Fin 8 × Fin 3 => e (cornersOf coarse k bc.1) bc.2) ⬝ᵥ
          (makeKE nu 1 *ᵥ childDisp s (fun bc : Fin 8 × Fin 3 => e' (cornersOf coarse k bc.1) bc.2)))))).trans ?_
  rw [← Finset.mul_sum, refine_form, cellForm_eq]
  ring

/-! ## Corrections -/

/-- What corrections need of two levels. -/
structure Nested (KE : Matrix (Fin 8 × Fin 3) (Fin 8 × Fin 3) ℝ) (l lc : SLevel) : Prop where
  fine : Spec.Sound l
  coarse : Spec.Sound lc
  transfer : ∀ n < l.nn, ∀ q ∈ l.P n, q.2 ≠ 0 → q.1 < lc.nn
  energy : ∀ e e', mask lc e = e → mask lc e' = e' →
    Spec.levelForm KE l.els (prolongTo l e) (prolongTo l e') = 2 * Spec.levelForm KE lc.els e e'

variable {KE : Matrix (Fin 8 × Fin 3) (Fin 8 × Fin 3) ℝ}

theorem prolongTo_mask (l : SLevel) (e : Vec) : mask l (prolongTo l e) = prolongTo l e := mask_mask _ _

theorem potential_add (hs : KE.IsSymm) (l : SLevel) (hr : ∀ el ∈ l.els, ∀ a, el.1 a < l.nn) (b u d : Vec) (hd : mask l d = d) :
    Spec.potential KE l b (u + d) =
      Spec.potential KE l b u - dot l.nn d (resid KE l b u) + Spec.levelForm KE l.els d d / 2 := by
  have e1 : dot l.nn d (resid KE l b u) = dot l.nn d b - Spec.levelForm KE l.els u d := by
    unfold resid
    rw [dot_mask_right l d _ hd, dot_sub_right, dot_mv l hr u d hd]
  unfold Spec.potential
  rw [levelForm_add_self hs]
  have e3 : (∑ n ∈ Finset.range l.nn, ∑ c : Fin 3, b n c * (u + d) n c) =
      (∑ n ∈ Finset.range l.nn, ∑ c : Fin 3, b n c * u n c) + dot l.nn d b := by
    rw [dot_comm]
    unfold dot
    simp only [Pi.add_apply, mul_add, Finset.sum_add_distrib]
  rw [e3]
  linarith

theorem dot_equilibrium (l : SLevel) (hr : ∀ el ∈ l.els, ∀ a, el.1 a < l.nn) (load e d : Vec) (he : Spec.Equilibrium KE l load e)
    (hd : mask l d = d) : dot l.nn d load = Spec.levelForm KE l.els e d := by
  rw [← dot_mv l hr e d hd]
  unfold dot
  refine Finset.sum_congr rfl fun n _ => Finset.sum_congr rfl fun c _ => ?_
  by_cases hn : l.free n
  · rw [he.2 n hn c]
  · rw [mask_fixed hd hn c, zero_mul, zero_mul]

theorem potential_prolong (hs : KE.IsSymm) {l lc : SLevel} (h : Nested KE l lc) (b u e d : Vec)
    (he : Spec.Equilibrium KE lc (restrictTo l lc (resid KE l b u)) e) (hd : mask lc d = d) :
    Spec.potential KE l b (u + prolongTo l d) =
      Spec.potential KE l b u - Spec.levelForm KE lc.els e d + Spec.levelForm KE lc.els d d := by
  rw [potential_add hs l h.fine.range b u _ (prolongTo_mask l d),
    C110_restriction_transpose l lc h.transfer d (resid KE l b u) hd (mask_mask _ _), dot_equilibrium lc h.coarse.range _ e d he hd,
    h.energy d d hd hd]
  ring

theorem levelForm_smul_right (els : List ((Fin 8 → ℕ) × ℝ)) (t : ℝ) (u v : Vec) :
    Spec.levelForm KE els u (t • v) = t * Spec.levelForm KE els u v := by
  unfold Spec.levelForm
  rw [← List.sum_map_mul_left]
  congr 1
  refine List.map_congr_left fun el _ => ?_
  have : (fun i : Fin 8 × Fin 3 => (t • v) (el.1 i.1) i.2) = t • fun i : Fin 8 × Fin 3 => v (el.1 i.1) i.2 := rfl
  rw [this, Matrix.mulVec_smul, dotProduct_smul, smul_eq_mul]
  ring

theorem levelForm_nonneg (hK : Elastic KE) (els : List ((Fin 8 → ℕ) × ℝ)) (hE : ∀ el ∈ els, 0 < el.2) (u : Vec) :
    0 ≤ Spec.levelForm KE els u u := by
  unfold Spec.levelForm
  apply List.sum_nonneg
  intro x hx
  obtain ⟨el, hel, rfl⟩ := List.mem_map.mp hx
  exact mul_nonneg (hE el hel).le (hK.nonneg _)

theorem prolongTo_smul (l : SLevel) (t : ℝ) (e : Vec) : prolongTo l (t • e) = t • prolongTo l e := by
  funext n c
  unfold prolongTo mask
  simp only [Pi.smul_apply, smul_eq_mul]
  split_ifs
  · rw [← List.sum_map_mul_left]
    congr 1
    exact List.map_congr_left fun q _ => by ring
  · simp

/-- The moduli of the next level are moduli of this one. -/
theorem coarse_moduli (L : ℕ) (g : Grid) (cells : List ℕ) (hc : ∀ e ∈ cells, e < g.numCells) (l : ℕ)
    (fine coarse : Level) (h1 : (build L g cells)[l]? = some fine) (h2 : (build L g cells)[l + 1]? = some coarse)
    (rho : List ℝ) (hlen : rho.length = fine.cells.length) (hb : Spec.WholeBlocks fine coarse rho) :
    ∀ r ∈ coarsenRho fine coarse rho, r ∈ rho := by
  obtain ⟨hcl, hav⟩ := C116_average L g cells hc l fine coarse h1 h2 rho hlen
  intro r hr
  obtain ⟨k, hk, rfl⟩ := List.getElem_of_mem hr
  rw [hcl] at hk
  obtain ⟨⟨i, hi⟩, hmean⟩ := hav k hk
  have hil : i < rho.length := by
    simp only [Spec.children, Finset.mem_filter, Finset.mem_range] at hi; exact hlen ▸ hi.1
  rw [← List.getD_eq_getElem _ 0, hmean, Finset.sum_congr rfl fun j hj => hb.same k hk j hj i hi, Finset.sum_const, hb.eight k hk,
    List.getD_eq_getElem _ _ hil]
  have : (8 • rho[i] / ((8 : ℕ) : ℝ)) = rho[i] := by simp
  rw [this]
  exact List.getElem_mem hil

theorem nested_of_blocks (nu : ℝ) (L : ℕ) (g : Grid) (cells : List ℕ) (hc : ∀ e ∈ cells, e < g.numCells) (l : ℕ)
    (fine coarse : Level) (h1 : (build L g cells)[l]? = some fine) (h2 : (build L g cells)[l + 1]? = some coarse)
    (pred : FixedPred) (next : Option Level) (Emin E0 p : ℝ) (rho : List ℝ) (hlen : rho.length = fine.cells.length)
    (hpos : ∀ r ∈ rho, 0 < youngs Emin E0 p r) (hb : Spec.WholeBlocks fine coarse rho)
    (hfix : Spec.FixedAlike (toSLevel pred fine (some coarse) (rho.map (youngs Emin E0 p)))
      (toSLevel pred coarse next ((coarsenRho fine coarse rho).map (youngs Emin E0 p)))) :
    Nested (makeKE nu 1) (toSLevel pred fine (some coarse) (rho.map (youngs Emin E0 p)))
      (toSLevel pred coarse next ((coarsenRho fine coarse rho).map (youngs Emin E0 p))) := by
  have hcl := (C116_average L g cells hc l fine coarse h1 h2 rho hlen).1
  refine ⟨C111_levels_sound L g cells hc l fine h1 pred _ _ (by rw [List.length_map, hlen]) ?_,
    C111_levels_sound L g cells hc (l + 1) coarse h2 pred _ _ (by rw [List.length_map, hcl]) ?_, fun n hn q hq hw => ?_,
    fun e e' he he' => C157_energy_halved nu L g cells hc l fine coarse h1 h2 pred next Emin E0 p rho hlen hb hfix e e'
      (fun n hn c => mask_fixed he hn c) (fun n hn c => mask_fixed he' hn c)⟩
  · intro x hx
    obtain ⟨r, hr, rfl⟩ := List.mem_map.mp hx
    exact hpos r hr
  · intro x hx
    obtain ⟨r, hr, rfl⟩ := List.mem_map.mp hx
    exact hpos r (coarse_moduli L g cells hc l fine coarse h1 h2 rho hlen hb r hr)
  · have hn' : n < fine.nodes.length := hn
    have hq' : q ∈ transferRow fine coarse (fine.nodes.getD n 0) := by
      simp only [toSLevel, if_pos hn'] at hq
      exact hq
    exact ((C110_interpolation L g cells hc l fine coarse h1 h2 _ (by
      rw [List.getD_eq_getElem _ _ hn']; exact List.getElem_mem hn')).2.1 q hq').2 hw

/-- C157: so, on such a band, the correction from an exact solve on the next level overshoots: it leaves the potential energy as it
was. Half of it lowers the energy by a quarter of the correction's coarse energy, and no correction from that level does better. -/
theorem C157_correction_lowers_nothing (nu : ℝ) (hnu : -1 < nu) (hnu' : nu < 1 / 2) (L : ℕ) (g : Grid) (cells : List ℕ)
    (hc : ∀ e ∈ cells, e < g.numCells) (i : ℕ) (fine coarse : Level) (h1 : (build L g cells)[i]? = some fine)
    (h2 : (build L g cells)[i + 1]? = some coarse) (pred : FixedPred) (next : Option Level) (Emin E0 p : ℝ) (rho : List ℝ)
    (hlen : rho.length = fine.cells.length) (hpos : ∀ r ∈ rho, 0 < youngs Emin E0 p r) (hb : Spec.WholeBlocks fine coarse rho)
    (l lc : SLevel) (hl : l = toSLevel pred fine (some coarse) (rho.map (youngs Emin E0 p)))
    (hlc : lc = toSLevel pred coarse next ((coarsenRho fine coarse rho).map (youngs Emin E0 p)))
    (hfix : Spec.FixedAlike l lc) (b u e : Vec)
    (he : Spec.Equilibrium (makeKE nu 1) lc (restrictTo l lc (resid (makeKE nu 1) l b u)) e) :
    Spec.potential (makeKE nu 1) l b (u + prolongTo l e) = Spec.potential (makeKE nu 1) l b u ∧
      Spec.potential (makeKE nu 1) l b (u + (1 / 2 : ℝ) • prolongTo l e) =
        Spec.potential (makeKE nu 1) l b u - Spec.levelForm (makeKE nu 1) lc.els e e / 4 ∧
      ∀ d, (∀ n, ¬ lc.free n → ∀ c, d n c = 0) →
        Spec.potential (makeKE nu 1) l b (u + (1 / 2 : ℝ) • prolongTo l e) ≤ Spec.potential (makeKE nu 1) l b (u + prolongTo l d) := by
  set KE := makeKE nu 1 with hKE
  have hK : Elastic KE := makeKE_elastic hnu hnu'
  have hN : Nested KE l lc := by
    subst hl hlc
    exact nested_of_blocks nu L g cells hc i fine coarse h1 h2 pred next Emin E0 p rho hlen hpos hb hfix
  have hem : mask lc e = e := mask_of_fixed he.1
  have hhalf : mask lc ((1 / 2 : ℝ) • e) = (1 / 2 : ℝ) • e := by rw [mask_smul, hem]
  have f1 := potential_prolong hK.symm hN b u e e he hem
  have f2 := potential_prolong hK.symm hN b u e _ he hhalf
  rw [levelForm_smul_right, levelForm_smul_right, levelForm_symm hK.symm _ ((1 / 2 : ℝ) • e) e, levelForm_smul_right, prolongTo_smul] at f2
  have f2' : Spec.potential KE l b (u + (1 / 2 : ℝ) • prolongTo l e) =
      Spec.potential KE l b u - Spec.levelForm KE lc.els e e / 4 := by
    rw [f2]; ring
  refine ⟨by rw [f1]; ring, f2', fun d hd => ?_⟩
  have hdm := mask_of_fixed hd
  have f3 := potential_prolong hK.symm hN b u e d he hdm
  rw [f2', f3]
  have hnn := levelForm_nonneg hK _ hN.coarse.modulus (d + (-(1 / 2) : ℝ) • e)
  rw [levelForm_add_self hK.symm, levelForm_smul_right, levelForm_smul_right,
    levelForm_symm hK.symm _ ((-(1 / 2) : ℝ) • e) e, levelForm_smul_right, levelForm_symm hK.symm _ d e] at hnn
  linarith

/-- C157: a two-level cycle with an exact coarse solve and any numbers of sweeps never raises the potential energy above that of the
unloaded state: what it lowers is due to the sweeps. -/
theorem C157_two_level_cycle_partial (nu : ℝ) (hnu : -1 < nu) (hnu' : nu < 1 / 2) (L : ℕ) (g : Grid) (cells : List ℕ)
    (hc : ∀ e ∈ cells, e < g.numCells) (i : ℕ) (fine coarse : Level) (h1 : (build L g cells)[i]? = some fine)
    (h2 : (build L g cells)[i + 1]? = some coarse) (pred : FixedPred) (next : Option Level) (Emin E0 p : ℝ) (rho : List ℝ)
    (hlen : rho.length = fine.cells.length) (hpos : ∀ r ∈ rho, 0 < youngs Emin E0 p r) (hb : Spec.WholeBlocks fine coarse rho)
    (l lc : SLevel) (hl : l = toSLevel pred fine (some coarse) (rho.map (youngs Emin E0 p)))
    (hlc : lc = toSLevel pred coarse next ((coarsenRho fine coarse rho).map (youngs Emin E0 p)))
    (hfix : Spec.FixedAlike l lc) (pre post : ℕ) (solve : SLevel → Vec → Vec)
    (hsolve : ∀ load, (∀ n, ¬ lc.free n → ∀ c, load n c = 0) → Spec.Equilibrium (makeKE nu 1) lc load (solve lc load)) (b : Vec) :
    Spec.potential (makeKE nu 1) l b (vcycle (makeKE nu 1) pre post solve [l, lc] b) =
        Spec.potential (makeKE nu 1) l b (smooth (makeKE nu 1) l b post (smooth (makeKE nu 1) l b pre 0 +
          prolongTo l (solve lc (restrictTo l lc (resid (makeKE nu 1) l b (smooth (makeKE nu 1) l b pre 0)))))) ∧
      Spec.potential (makeKE nu 1) l b (vcycle (makeKE nu 1) pre post solve [l, lc] b) ≤
        Spec.potential (makeKE nu 1) l b (smooth (makeKE nu 1) l b pre 0) ∧
      Spec.potential (makeKE nu 1) l b (smooth (makeKE nu 1) l b pre 0) ≤ 0 := by
  set KE := makeKE nu 1 with hKE
  have hN : Nested KE l lc := by
    subst hl hlc
    exact nested_of_blocks nu L g cells hc i fine coarse h1 h2 pred next Emin E0 p rho hlen hpos hb hfix
  set u := smooth KE l b pre 0 with hu
  set r := restrictTo l lc (resid KE l b u) with hr
  have hrm : mask lc r = r := mask_mask _ _
  have heq := hsolve r fun n hn c => mask_fixed hrm hn c
  have hm := mask_of_fixed heq.1
  have hv : vcycle KE pre post solve [l, lc] b = smooth KE l b post (u + prolongTo l (solve lc r)) := by
    simp only [vcycle]
    rw [← hu, ← hr, hrm, hm]
  have hum : mask l u = u := smooth_mask l b pre 0 (mask_zero l)
  have hcorr := (C157_correction_lowers_nothing nu hnu hnu' L g cells hc i fine coarse h1 h2 pred next Emin E0 p rho hlen hpos hb
    l lc hl hlc hfix b u _ heq).1
  refine ⟨by rw [hv], ?_, ?_⟩
  · rw [hv]
    have := (C111_sweeps nu hnu hnu' l hN.fine b (u + prolongTo l (solve lc r)) post (by
      rw [mask_add, hum, prolongTo_mask])).2.1
    rw [← hcorr]
    exact this
  · have := (C111_sweeps nu hnu hnu' l hN.fine b 0 pre (mask_zero l)).2.1
    have hz : Spec.potential KE l b 0 = 0 := by
      unfold Spec.potential Spec.levelForm
      simp [Matrix.mulVec, dotProduct]
    rw [← hz]
    exact this

/-! ## Deeper hierarchies -/

theorem resid_zero (l : SLevel) (b : Vec) : resid KE l b 0 = mask l b := by
  have : mv KE l 0 = 0 := by
    funext n c
    unfold mv
    simp
  unfold resid
  rw [this, sub_zero]

/-- Without sweeps every level below the first doubles the correction. -/
theorem bare_cycle (solve : SLevel → Vec → Vec) : ∀ (ls : List SLevel) (l : SLevel), ls.head? = some l →
    (∀ i a c, ls[i]? = some a → ls[i + 1]? = some c → Nested KE a c) →
    (∀ last, ls.getLast? = some last → (∀ el ∈ last.els, ∀ a, el.1 a < last.nn) ∧
      ∀ load, (∀ n, ¬ last.free n → ∀ c, load n c = 0) → Spec.Equilibrium KE last load (solve last load)) →
    ∀ b, mask l (vcycle KE 0 0 solve ls b) = vcycle KE 0 0 solve ls b ∧
      Spec.levelForm KE l.els (vcycle KE 0 0 solve ls b) (vcycle KE 0 0 solve ls b) =
        2 ^ (ls.length - 1) * dot l.nn (vcycle KE 0 0 solve ls b) b ∧
      ((∀ last, ls.getLast? = some last → ∀ x, (∀ n, ¬ last.free n → ∀ c, x n c = 0) → Spec.levelForm KE last.els x x = 0 → x = 0) →
        Spec.levelForm KE l.els (vcycle KE 0 0 solve ls b) (vcycle KE 0 0 solve ls b) = 0 → vcycle KE 0 0 solve ls b = 0)
  | [], _, h, _, _, _ => by simp at h
  | [l'], l, h, _, hs, b => by
    simp only [List.head?_cons, Option.some.injEq] at h
    subst h
    obtain ⟨hr, hs⟩ := hs l' rfl
    have heq := hs (mask l' b) fun n hn c => mask_fixed (mask_mask _ _) hn c
    have hm := mask_of_fixed heq.1
    have hv : vcycle KE 0 0 solve [l'] b = solve l' (mask l' b) := hm
    rw [hv]
    refine ⟨hm, ?_, fun hu hz => hu l' rfl _ heq.1 hz⟩
    rw [← dot_equilibrium l' hr _ _ _ heq hm, dot_mask_right l' _ _ hm]
    simp
  | l' :: lc :: rest, l, h, hN, hs, b => by
    simp only [List.head?_cons, Option.some.injEq] at h
    subst h
    have hn := hN 0 l' lc rfl rfl
    obtain ⟨i1, i2, i3⟩ := bare_cycle solve (lc :: rest) lc rfl (fun i a c h1 h2 => hN (i + 1) a c h1 h2)
      (fun last hl => hs last (by rw [List.getLast?_cons_cons]; exact hl)) (restrictTo l' lc (mask l' b))
    set e := vcycle KE 0 0 solve (lc :: rest) (restrictTo l' lc (mask l' b)) with he
    have hv : vcycle KE 0 0 solve (l' :: lc :: rest) b = prolongTo l' e := by
      show (0 : Vec) + prolongTo l' (vcycle KE 0 0 solve (lc :: rest) (restrictTo l' lc (resid KE l' b 0))) = _
      rw [resid_zero, zero_add]
    rw [hv]
    refine ⟨prolongTo_mask _ _, ?_, fun hu hz => ?_⟩
    · rw [hn.energy e e i1 i1, i2, ← C110_restriction_transpose l' lc hn.transfer e (mask l' b) i1 (mask_mask _ _),
        dot_mask_right l' _ _ (prolongTo_mask _ _)]
      simp only [List.length_cons, Nat.add_sub_cancel, pow_succ]
      ring
    · rw [hn.energy e e i1 i1] at hz
      have : e = 0 := i3 (fun last hl => hu last (by rw [List.getLast?_cons_cons]; exact hl)) (by linarith)
      rw [this]
      funext n c
      unfold prolongTo mask
      simp

theorem plainLevels_pair (pred : FixedPred) (Emin E0 p : ℝ) : ∀ (ls : List Level) (rhos : List (List ℝ)),
    (plainLevels pred Emin E0 p ls rhos).length = ls.length ∧
    ∀ i a c, (plainLevels pred Emin E0 p ls rhos)[i]? = some a → (plainLevels pred Emin E0 p ls rhos)[i + 1]? = some c →
      ∃ fine coarse next, ls[i]? = some fine ∧ ls[i + 1]? = some coarse ∧
        a = toSLevel pred fine (some coarse) ((rhos.getD i []).map (youngs Emin E0 p)) ∧
        c = toSLevel pred coarse next ((rhos.getD (i + 1) []).map (youngs Emin E0 p))
  | [], _ => by simp [plainLevels]
  | [_], _ => by
    refine ⟨rfl, fun i a c _ h2 => ?_⟩
    simp [plainLevels] at h2
  | l :: c' :: rest, rhos => by
    obtain ⟨ih1, ih2⟩ := plainLevels_pair pred Emin E0 p (c' :: rest) rhos.tail
    refine ⟨by simp only [plainLevels, List.length_cons, ih1], fun i a c h1 h2 => ?_⟩
    have htail : ∀ j, rhos.tail.getD j [] = rhos.getD (j + 1) [] := by
      intro j; cases rhos <;> simp
    cases i with
    | zero =>
      simp only [plainLevels, List.getElem?_cons_zero, List.getElem?_cons_succ, Option.some.injEq] at h1 h2
      have h0 : rhos.headD [] = rhos.getD 0 [] := by cases rhos <;> rfl
      cases rest with
      | nil =>
        simp only [plainLevels, List.getElem?_cons_zero, Option.some.injEq] at h2
        refine ⟨l, c', none, rfl, rfl, by rw [← h1, h0], ?_⟩
        rw [← h2, ← htail]
        cases rhos.tail <;> rfl
      | cons d rest =>
        simp only [plainLevels, List.getElem?_cons_zero, Option.some.injEq] at h2
        refine ⟨l, c', some d, rfl, rfl, by rw [← h1, h0], ?_⟩
        rw [← h2, ← htail]
        cases rhos.tail <;> rfl
    | succ i =>
      simp only [plainLevels, List.getElem?_cons_succ] at h1 h2
      obtain ⟨fine, coarse, next, a1, a2, a3, a4⟩ := ih2 i a c h1 h2
      rw [htail] at a3 a4
      exact ⟨fine, coarse, next, a1, a2, a3, a4⟩

theorem plainLevels_get (pred : FixedPred) (Emin E0 p : ℝ) : ∀ (ls : List Level) (rhos : List (List ℝ)) (i : ℕ) (a : SLevel),
    (plainLevels pred Emin E0 p ls rhos)[i]? = some a →
      ∃ lev next, ls[i]? = some lev ∧ a = toSLevel pred lev next ((rhos.getD i []).map (youngs Emin E0 p))
  | [], _, i, a, h => by simp [plainLevels] at h
  | [l], rhos, i, a, h => by
    cases i with
    | zero =>
      simp only [plainLevels, List.getElem?_cons_zero, Option.some.injEq] at h
      exact ⟨l, none, rfl, by rw [← h]; cases rhos <;> rfl⟩
    | succ i => simp [plainLevels] at h
  | l :: c :: rest, rhos, i, a, h => by
    cases i with
    | zero =>
      simp only [plainLevels, List.getElem?_cons_zero, Option.some.injEq] at h
      exact ⟨l, some c, rfl, by rw [← h]; cases rhos <;> rfl⟩
    | succ i =>
      simp only [plainLevels, List.getElem?_cons_succ] at h
      obtain ⟨lev, next, h1, h2⟩ := plainLevels_get pred Emin E0 p (c :: rest) rhos.tail i a h
      refine ⟨lev, next, h1, h2.trans ?_⟩
      cases rhos <;> simp

namespace Spec

/-- Every level but the last consists of whole blocks of eight cells of one density, and the levels' fixed nodes agree. -/
def BlockHierarchy (L : ℕ) (g : Grid) (cells : List ℕ) (pred : FixedPred) (Emin E0 p : ℝ) (rho : List ℝ) : Prop :=
  (∀ i fine coarse r, (build L g cells)[i]? = some fine → (build L g cells)[i + 1]? = some coarse →
    (rhosFrom (build L g cells) rho)[i]? = some r → WholeBlocks fine coarse r) ∧
  ∀ i l lc, (plainLevels pred Emin E0 p (build L g cells) (rhosFrom (build L g cells) rho))[i]? = some l →
    (plainLevels pred Emin E0 p (build L g cells) (rhosFrom (build L g cells) rho))[i + 1]? = some lc → FixedAlike l lc

end Spec

/-- C157: on a hierarchy of `L` levels of whole blocks, a cycle without sweeps and with an exact last solve returns `2^(L-1)` times
the best displacement the last level can give: its strain energy is `2^(L-1)` times half the work of the load instead of half of it.
With three levels or more it raises the potential energy above that of the unloaded state. -/
theorem C157_deeper_cycles_raise (nu : ℝ) (hnu : -1 < nu) (hnu' : nu < 1 / 2) (L : ℕ) (g : Grid) (cells : List ℕ)
    (hc : ∀ e ∈ cells, e < g.numCells) (pred : FixedPred) (Emin E0 p : ℝ) (rho : List ℝ) (hlen : rho.length = cells.length)
    (hpos : ∀ r ∈ rho, 0 < youngs Emin E0 p r) (hb : Spec.BlockHierarchy L g cells pred Emin E0 p rho) (ls : List SLevel)
    (hls : ls = plainLevels pred Emin E0 p (build L g cells) (rhosFrom (build L g cells) rho)) (l last : SLevel)
    (hl : ls.head? = some l) (hlast : ls.getLast? = some last) (solve : SLevel → Vec → Vec)
    (hsolve : ∀ load, (∀ n, ¬ last.free n → ∀ c, load n c = 0) → Spec.Equilibrium (makeKE nu 1) last load (solve last load)) (b v : Vec)
    (hv : v = vcycle (makeKE nu 1) 0 0 solve ls b) :
    ls.length = L ∧ Spec.levelForm (makeKE nu 1) l.els v v = 2 ^ (L - 1) * dot l.nn b v ∧ 0 ≤ dot l.nn b v ∧
      Spec.potential (makeKE nu 1) l b v = (2 ^ (L - 1) / 2 - 1) * dot l.nn b v ∧
      ((∀ x, (∀ n, ¬ last.free n → ∀ c, x n c = 0) → Spec.levelForm (makeKE nu 1) last.els x x = 0 → x = 0) → 3 ≤ L → v ≠ 0 →
        Spec.potential (makeKE nu 1) l b 0 < Spec.potential (makeKE nu 1) l b v) := by
  set KE := makeKE nu 1 with hKE
  have hK : Elastic KE := makeKE_elastic hnu hnu'
  obtain ⟨r1, r2, r3⟩ := rhosFrom_spec (build L g cells) rho
  obtain ⟨d1, d2⟩ := C109_levels L g cells hc
  have hlev : ∀ (i : ℕ) (lev : Level), (build L g cells)[i]? = some lev → ∃ r : List ℝ, (rhosFrom (build L g cells) rho)[i]? = some r ∧
      r.length = lev.cells.length ∧ ∀ x ∈ r, x ∈ rho := by
    intro i
    induction i with
    | zero =>
      intro lev h
      refine ⟨rho, r2 (by intro h'; rw [h'] at h; simp at h), ?_, fun x hx => hx⟩
      obtain ⟨lo, hi, hbd⟩ : ∃ lo hi, ∀ r ∈ rho, lo ≤ r ∧ r ≤ hi := by
        obtain ⟨lo, hlo⟩ := rho.toFinset.bddBelow
        obtain ⟨hi, hhi⟩ := rho.toFinset.bddAbove
        exact ⟨lo, hi, fun r hr => ⟨hlo (by simpa using hr), hhi (by simpa using hr)⟩⟩
      obtain ⟨r, _, b1, _, b2, _⟩ := (C116_every_level L g cells hc rho hlen lo hi hbd).2 0 lev h
      rw [← b2 rfl]; exact b1
    | succ i ih =>
      intro lev h
      obtain ⟨hi, _⟩ := List.getElem?_eq_some_iff.mp h
      obtain ⟨fine, hf⟩ : ∃ fine, (build L g cells)[i]? = some fine := ⟨_, List.getElem?_eq_getElem (by omega)⟩
      obtain ⟨r, hr, hrl, hrm⟩ := ih fine hf
      refine ⟨_, r3 i fine lev r hf h hr, (C116_average L g cells hc i fine lev hf h r hrl).1, fun x hx => ?_⟩
      exact hrm x (coarse_moduli L g cells hc i fine lev hf h r hrl (hb.1 i fine lev r hf h hr) x hx)
  obtain ⟨p1, p2⟩ := plainLevels_pair pred Emin E0 p (build L g cells) (rhosFrom (build L g cells) rho)
  have hL : ls.length = L := by rw [hls, p1, d1]
  have hN : ∀ i a c, ls[i]? = some a → ls[i + 1]? = some c → Nested KE a c := by
    intro i a c h1 h2
    have hfix := hb.2 i a c (hls ▸ h1) (hls ▸ h2)
    rw [hls] at h1 h2
    obtain ⟨fine, coarse, next, q1, q2, rfl, rfl⟩ := p2 i a c h1 h2
    obtain ⟨r, hr, hrl, hrm⟩ := hlev i fine q1
    have e1 : (rhosFrom (build L g cells) rho).getD i [] = r := by rw [List.getD_eq_getElem?_getD, hr]; rfl
    have e2 : (rhosFrom (build L g cells) rho).getD (i + 1) [] = coarsenRho fine coarse r := by
      rw [List.getD_eq_getElem?_getD, r3 i fine coarse r q1 q2 hr]; rfl
    rw [e1, e2] at hfix ⊢
    exact nested_of_blocks nu L g cells hc i fine coarse q1 q2 pred next Emin E0 p r hrl (fun x hx => hpos x (hrm x hx))
      (hb.1 i fine coarse r q1 q2 hr) hfix
  have hS : ∀ (i : ℕ) (a : SLevel), ls[i]? = some a → Spec.Sound a := by
    intro i a h
    rw [hls] at h
    obtain ⟨lev, next, q1, rfl⟩ := plainLevels_get pred Emin E0 p _ _ i a h
    obtain ⟨r, hr, hrl, hrm⟩ := hlev i lev q1
    have e1 : (rhosFrom (build L g cells) rho).getD i [] = r := by rw [List.getD_eq_getElem?_getD, hr]; rfl
    rw [e1]
    refine C111_levels_sound L g cells hc i lev q1 pred _ _ (by rw [List.length_map, hrl]) fun x hx => ?_
    obtain ⟨y, hy, rfl⟩ := List.mem_map.mp hx
    exact hpos y (hrm y hy)
  have hlS : Spec.Sound l := hS 0 l (by rw [← List.head?_eq_getElem?]; exact hl)
  have hlastS : Spec.Sound last := hS (ls.length - 1) last (by rw [← List.getLast?_eq_getElem?]; exact hlast)
  obtain ⟨c1, c2, c3⟩ := bare_cycle solve ls l hl hN (fun x hx => by
    rw [hlast, Option.some.injEq] at hx
    subst hx
    exact ⟨hlastS.range, hsolve⟩) b
  rw [← hv] at c1 c2 c3
  rw [hL, dot_comm] at c2
  have hnn := levelForm_nonneg hK l.els hlS.modulus v
  have h2 : (0 : ℝ) < 2 ^ (L - 1) := by positivity
  have hdot : 0 ≤ dot l.nn b v := by
    rw [c2] at hnn
    exact nonneg_of_mul_nonneg_right hnn h2
  have hpot : Spec.potential KE l b v = (2 ^ (L - 1) / 2 - 1) * dot l.nn b v := by
    have : Spec.potential KE l b v = Spec.levelForm KE l.els v v / 2 - dot l.nn b v := rfl
    rw [this, c2]; ring
  refine ⟨hL, c2, hdot, hpot, fun hu h3 hne => ?_⟩
  have hz : Spec.potential KE l b 0 = 0 := by
    unfold Spec.potential Spec.levelForm
    simp [Matrix.mulVec, dotProduct]
  rw [hz, hpot]
  have hpw : (4 : ℝ) ≤ 2 ^ (L - 1) := by
    calc (4 : ℝ) = 2 ^ 2 := by norm_num
      _ ≤ 2 ^ (L - 1) := pow_le_pow_right₀ (by norm_num) (by omega)
  refine mul_pos (by linarith) (lt_of_le_of_ne hdot fun h0 => hne (c3 (fun x hx => ?_) (by rw [c2, ← h0, mul_zero])))
  rw [hlast, Option.some.injEq] at hx
  subst hx
  exact hu

/-- Clamping the bottom plane fixes the levels alike. -/
theorem C157_clamped_plane (L : ℕ) (g : Grid) (cells : List ℕ) (hc : ∀ e ∈ cells, e < g.numCells) (i : ℕ)
    (fine coarse : Level) (h1 : (build L g cells)[i]? = some fine) (h2 : (build L g cells)[i + 1]? = some coarse)
    (next : Option Level) (E Ec : List ℝ) :
    Spec.FixedAlike (toSLevel (fun t _ => t.2.2 == 0) fine (some coarse) E) (toSLevel (fun t _ => t.2.2 == 0) coarse next Ec) := by
  obtain ⟨g', cs, hcs, rfl, rfl⟩ := buildFrom_pair L g _ (fun e he => hc e ((mem_sortedCells cells e).mp he)) i fine coarse h1 h2
  intro n hn q hq hw
  simp only [toSLevel, Bool.and_eq_true, decide_eq_true_eq, freeNode, Bool.not_eq_true', not_and, Bool.not_eq_false] at hn hq ⊢
  split_ifs at hq with hlt
  · have hfix := hn hlt
    rw [beq_iff_eq, nodeTriple_eq] at hfix
    simp only [transferRow, List.mem_flatMap, List.mem_map] at hq
    obtain ⟨x, hx, y, hy, z, hz, rfl⟩ := hq
    have hmem : (mkLevel g' cs).nodes.getD n 0 ∈ (mkLevel g' cs).nodes := by
      rw [List.getD_eq_getElem _ _ hlt]; exact List.getElem_mem hlt
    obtain ⟨e1, e2⟩ := transferEntry_spec g' cs hcs _ hmem hx hy hz
    obtain ⟨e3, e4⟩ := e2 hw
    intro _
    rw [beq_iff_eq, nodeTriple_eq, e4]
    rw [e1] at hw
    have hz' : z ∈ axisParents 0 := by
      have : (nodeTriple (mkLevel g' cs).g ((mkLevel g' cs).nodes.getD n 0)).2.2 = 0 := hfix
      rw [this] at hz; exact hz
    simp only [axisParents, List.mem_cons, List.not_mem_nil, or_false] at hz'
    rcases hz' with rfl | rfl
    · rfl
    · exact absurd (by simp) hw
  · rw [List.mem_replicate] at hq
    exact absurd (by rw [hq.2]) hw

example : (build 3 ⟨4, 4, 4⟩ (List.range 64)).map (fun l => (l.cells.length, l.nodes.length)) = [(64, 125), (8, 27), (1, 8)] := by
  decide +kernel

/-- Bands of whole blocks of one density, clamped at the bottom plane. -/
theorem uniform_hierarchy (L : ℕ) (g : Grid) (cells : List ℕ) (hc : ∀ e ∈ cells, e < g.numCells) (Emin E0 p d : ℝ)
    (hgeo : ((build L g cells).zip (build L g cells).tail).all (fun q => decide (q.1.cells.Nodup) &&
      decide (∀ k < q.2.cells.length, (Spec.children q.1 q.2 k).card = 8)) = true) :
    Spec.BlockHierarchy L g cells (fun t _ => t.2.2 == 0) Emin E0 p (List.replicate cells.length d) := by
  have hgeo' : ∀ (i : ℕ) (fine coarse : Level), (build L g cells)[i]? = some fine → (build L g cells)[i + 1]? = some coarse →
      fine.cells.Nodup ∧ ∀ k < coarse.cells.length, (Spec.children fine coarse k).card = 8 := by
    intro i fine coarse h1 h2
    have hm : (fine, coarse) ∈ (build L g cells).zip (build L g cells).tail := by
      refine List.mem_of_getElem? (i := i) ?_
      rw [List.getElem?_zip_eq_some]
      exact ⟨h1, by rw [List.getElem?_tail]; exact h2⟩
    have := List.all_eq_true.mp hgeo _ hm
    simpa using this
  refine ⟨fun i fine coarse r h1 h2 hr => ?_, fun i l lc h1 h2 => ?_⟩
  · obtain ⟨n1, n2⟩ := hgeo' i fine coarse h1 h2
    obtain ⟨r', hr', hl, hbd, _⟩ := (C116_every_level L g cells hc (List.replicate cells.length d) List.length_replicate d d (by
      intro x hx
      rw [(List.mem_replicate.mp hx).2]
      exact ⟨le_refl _, le_refl _⟩)).2 i fine h1
    rw [hr', Option.some.injEq] at hr
    subst hr
    have hd : ∀ k, ∀ j ∈ Spec.children fine coarse k, r'.getD j 0 = d := by
      intro k j hj
      have hj' : j < r'.length := by
        simp only [Spec.children, Finset.mem_filter, Finset.mem_range] at hj; exact hl ▸ hj.1
      rw [List.getD_eq_getElem _ _ hj']
      obtain ⟨a, b⟩ := hbd _ (List.getElem_mem hj')
      exact le_antisymm b a
    exact ⟨n1, n2, fun k _ a ha b hb => by rw [hd k a ha, hd k b hb]⟩
  · obtain ⟨fine, coarse, next, q1, q2, rfl, rfl⟩ := (plainLevels_pair _ Emin E0 p _ _).2 i l lc h1 h2
    exact C157_clamped_plane L g cells hc i fine coarse q1 q2 next _ _

theorem box_hierarchy (Emin E0 p d : ℝ) :
    Spec.BlockHierarchy 3 ⟨4, 4, 4⟩ (List.range 64) (fun t _ => t.2.2 == 0) Emin E0 p (List.replicate 64 d) :=
  uniform_hierarchy 3 ⟨4, 4, 4⟩ (List.range 64) (by decide +kernel) Emin E0 p d (by decide +kernel)

/-- A cube of 64 solid cells clamped at the bottom meets the hypotheses of all four theorems; the last level is definite. -/
example : ∃ fine coarse, (build 3 ⟨4, 4, 4⟩ (List.range 64))[0]? = some fine ∧ (build 3 ⟨4, 4, 4⟩ (List.range 64))[1]? = some coarse ∧
    Spec.WholeBlocks fine coarse (List.replicate 64 1) ∧ Spec.FixedAlike (toSLevel (fun t _ => t.2.2 == 0) fine (some coarse) (List.replicate 64 1))
      (toSLevel (fun t _ => t.2.2 == 0) coarse none (List.replicate 8 1)) :=
  ⟨_, _, rfl, rfl, (box_hierarchy 0 1 1 1).1 0 _ _ _ rfl rfl rfl,
    C157_clamped_plane 3 ⟨4, 4, 4⟩ (List.range 64) (by decide +kernel) 0 _ _ rfl rfl _ _ _⟩

example (E : ℝ) (hE : 0 < E) (x : Vec)
    (hx : ∀ n, ¬ (toSLevel (fun t _ => t.2.2 == 0) (mkLevel ⟨1, 1, 1⟩ [0]) none [E]).free n → ∀ c, x n c = 0)
    (hz : Spec.levelForm (makeKE (1 / 4) 1) (toSLevel (fun t _ => t.2.2 == 0) (mkLevel ⟨1, 1, 1⟩ [0]) none [E]).els x x = 0) : x = 0 := by
  have hsound := C111_levels_sound 1 ⟨1, 1, 1⟩ [0] (by decide) 0 (mkLevel ⟨1, 1, 1⟩ [0]) rfl (fun t _ => t.2.2 == 0) none [E] rfl (by simpa using hE)
  have hm := mask_of_fixed hx
  refine held_cell E x hx (((C115_krylov_definite (1 / 4) (by norm_num) (by norm_num) _ hsound).1 x hm).2.2.2.1 ?_)
  rw [← dot_mv _ hsound.range x x hm] at hz
  rw [← hz]
  unfold dot coarseOperator
  refine Finset.sum_congr rfl fun n _ => Finset.sum_congr rfl fun c _ => ?_
  split_ifs with h
  · rw [add_zero]
  · rw [hx n h c, add_zero]

end Verif.Props
