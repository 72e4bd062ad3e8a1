import Verif.Props.RigidBricks
import Verif.Props.Mesh

/-!
# Elasticity on the meshes of `rectangle_mesh` (C160)

The problem feax builds from a `QUAD4` mesh of `rectangle_mesh` (`/repo/feax/mesh.py:447-499`) with a quadrature of two points per
direction and an isotropic material is one of those of `Props/WellPosed.lean`, as soon as two of its nodes are held.
-/

namespace Verif.Props

open Verif.Model
open Spec.Amg (Skew)
open Spec.WellPosed

namespace Spec.WellPosed
variable {K : Type*} [Field K]

/-- The displacement variable of a problem on a plane quadrilateral mesh: two components per point, four nodes per cell. -/
def planeVar (m : FeMesh (K × K)) : Var := ⟨2, m.points.length, 4, m.cells.map fun c => c.map Int.toNat⟩

/-- The coordinates of the points of a plane mesh. -/
def planeX (m : FeMesh (K × K)) (n k : ℕ) : K := if k = 0 then (m.points.getD n (0, 0)).1 else (m.points.getD n (0, 0)).2

end Spec.WellPosed

section field
variable {K : Type*} [Field K] {nx ny : ℕ} {lx ly x0 y0 : K} {m : FeMesh (K × K)}

theorem plate_cell (h : rectangleMesh nx ny lx ly x0 y0 "QUAD4" = .ok m) {i j : ℕ} (hi : i < nx) (hj : j < ny) :
    (planeVar m).cells.getD (i * ny + j) [] =
      [i * (ny + 1) + j, (i + 1) * (ny + 1) + j, (i + 1) * (ny + 1) + (j + 1), i * (ny + 1) + (j + 1)] := by
  unfold rectangleMesh at h
  rw [if_pos rfl] at h
  injection h with h
  subst h
  simp only [planeVar, List.getD_eq_getElem?_getD, List.getElem?_map]
  rw [rectCells_getElem? _ _ _ _ _ _ _ hi hj]
  simp only [Option.map_some, Option.getD_some, List.map_map]
  show List.map (fun o : ℕ × ℕ => (1 * i + o.1) * (ny + 1) + (1 * j + o.2)) _ = _
  simp only [List.map_cons, List.map_nil, one_mul, add_zero]

theorem plate_cells_length (h : rectangleMesh nx ny lx ly x0 y0 "QUAD4" = .ok m) : (planeVar m).cells.length = nx * ny := by
  unfold rectangleMesh at h
  rw [if_pos rfl] at h
  injection h with h
  subst h
  simp [planeVar, rectCells_length]

theorem plate_points_length (h : rectangleMesh nx ny lx ly x0 y0 "QUAD4" = .ok m) : m.points.length = (nx + 1) * (ny + 1) := by
  unfold rectangleMesh at h
  rw [if_pos rfl] at h
  injection h with h
  subst h
  simp [gridPoints_length, linspace_length]

theorem plate_point (h : rectangleMesh nx ny lx ly x0 y0 "QUAD4" = .ok m) {a b : ℕ} (ha : a ≤ nx) (hb : b ≤ ny) :
    m.points.getD (a * (ny + 1) + b) (0, 0) = (x0 + a * (lx / nx), y0 + b * (ly / ny)) := by
  unfold rectangleMesh at h
  rw [if_pos rfl] at h
  injection h with h
  subst h
  have := gridPoints_getElem? (linspace x0 (x0 + lx) (nx + 1)) (linspace y0 (y0 + ly) (ny + 1)) a b
    (by rw [linspace_length]; omega) (by rw [linspace_length]; omega)
  have e : a * (ny + 1) + b = a * (linspace y0 (y0 + ly) (ny + 1)).length + b := by rw [linspace_length]
  rw [List.getD_eq_getElem?_getD, e, this, linspace_getElem, linspace_getElem]
  rfl

/-- The edges of the cells. -/
def plateEdge (nx ny : ℕ) (lx ly : K) (k : ℕ) : K := if k = 0 then lx / nx else ly / ny

theorem plate_box (h : rectangleMesh nx ny lx ly x0 y0 "QUAD4" = .ok m) {i j : ℕ} (hi : i < nx) (hj : j < ny) :
    Box 2 (planeX m) ((planeVar m).cells.getD (i * ny + j) []) (fun k => if k = 0 then x0 + i * (lx / nx) else y0 + j * (ly / ny))
      (plateEdge nx ny lx ly) := by
  rw [plate_cell h hi hj]
  refine ⟨rfl, fun a ha k hk => ?_⟩
  have ha4 : a < 4 := ha
  have p0 := plate_point h (a := i) (b := j) (by omega) (by omega)
  have p1 := plate_point h (a := i + 1) (b := j) (by omega) (by omega)
  have p2 := plate_point h (a := i + 1) (b := j + 1) (by omega) (by omega)
  have p3 := plate_point h (a := i) (b := j + 1) (by omega) (by omega)
  interval_cases a <;> interval_cases k <;>
    simp only [List.getD_cons_zero, List.getD_cons_succ, planeX, p0, p1, p2, p3, plateEdge, if_true, one_ne_zero, if_false] <;>
    simp [refCorner] <;> try ring

theorem plateEdge_ne [CharZero K] (hx : 0 < nx) (hy : 0 < ny) (hlx : lx ≠ 0) (hly : ly ≠ 0) : ∀ k < 2, plateEdge nx ny lx ly k ≠ 0 := by
  intro k _
  have h1 : (nx : K) ≠ 0 := by exact_mod_cast hx.ne'
  have h2 : (ny : K) ≠ 0 := by exact_mod_cast hy.ne'
  unfold plateEdge
  split_ifs
  · exact div_ne_zero hlx h1
  · exact div_ne_zero hly h2

/-- A cell number as column and row. -/
theorem plate_index {c : ℕ} (hc : c < nx * ny) : ∃ i < nx, ∃ j < ny, c = i * ny + j := by
  have hy : 0 < ny := by
    rcases Nat.eq_zero_or_pos ny with h | h
    · rw [h] at hc; simp at hc
    · exact h
  exact ⟨c / ny, (Nat.div_lt_iff_lt_mul hy).mpr hc, c % ny, Nat.mod_lt _ hy, (Nat.div_add_mod' c ny).symm⟩

/-- C160: every cell of a `QUAD4` rectangle mesh is rigid. -/
theorem C160_plate_cells [CharZero K] (hx : 0 < nx) (hy : 0 < ny) (hlx : lx ≠ 0) (hly : ly ≠ 0)
    (h : rectangleMesh nx ny lx ly x0 y0 "QUAD4" = .ok m) (fs : List Verif.Spec.Field) {k : ℕ} (pts : Fin k → K × K × K) (w : Fin k → K)
    (iv : Fin k → List K) (g g' : K) (hg : g ≠ g') (hp : ∀ x ∈ [g, g'], ∀ y ∈ [g, g'], ∃ q, (pts q).1 = x ∧ (pts q).2.1 = y)
    (c : ℕ) (hc : c < m.cells.length) :
    RigidCell fs 2 (planeX m) ((planeVar m).cells.getD c [])
      ((EleType.QUAD4.refElem 2 pts w).cellPoints (coordsOf (planeX m) ((planeVar m).cells.getD c [])) iv) := by
  have hl := plate_cells_length h
  rw [planeVar, List.length_map] at hl
  obtain ⟨i, hi, j, hj, rfl⟩ := plate_index (hl ▸ hc)
  exact C160_rectangle_cell fs (planeX m) _ _ _ (plate_box h hi hj) (plateEdge_ne hx hy hlx hly) pts w iv g g' hg hp

/-- C160: a `QUAD4` rectangle mesh with two held nodes is braced. -/
theorem C160_plate_braced [CharZero K] (hx : 0 < nx) (hy : 0 < ny) (hlx : lx ≠ 0) (hly : ly ≠ 0)
    (h : rectangleMesh nx ny lx ly x0 y0 "QUAD4" = .ok m) (d : Discretization K (List (QPoint K)) (List (QPoint K)))
    (hd : d.p.WF) (hv : d.p.vars = [planeVar m]) (rows : List ℕ) (n₁ n₂ : ℕ) (h₁ : n₁ < m.points.length) (h₂ : n₂ < m.points.length)
    (hne : n₁ ≠ n₂) (hrows : ∀ c < 2, n₁ * 2 + c ∈ rows ∧ n₂ * 2 + c ∈ rows) : Braced d (planeVar m) 2 (planeX m) rows := by
  have hx' : (nx : K) ≠ 0 := by exact_mod_cast hx.ne'
  have hy' : (ny : K) ≠ 0 := by exact_mod_cast hy.ne'
  have hnum : d.p.numCells = nx * ny := by
    rw [← plate_cells_length h]
    exact (hd.vars _ (by rw [hv]; exact List.mem_cons_self)).rows.symm
  have hcell : ∀ c, Spec.WellPosed.cell d c = (planeVar m).cells.getD c [] := by
    intro c
    unfold Spec.WellPosed.cell cellNodes
    rw [hv]
    rfl
  obtain ⟨_, hlen, hrange, hused, _⟩ := C43_rectangle_mesh nx ny hx hy lx ly x0 y0 "QUAD4" m h
  refine ⟨?_, ?_, ?_⟩
  · intro n hn
    obtain ⟨cl, hcl, hmem⟩ := hused n hn
    obtain ⟨i, hi, rfl⟩ := List.mem_iff_getElem.mp hcl
    refine ⟨i, by rw [hnum, ← hlen]; exact hi, ?_⟩
    rw [hcell, planeVar, List.getD_eq_getElem _ _ (by simpa using hi), List.getElem_map]
    exact List.mem_map.mpr ⟨_, hmem, rfl⟩
  · have hstep : ∀ i j i' j', i < nx → j < ny → i' < nx → j' < ny → (i' = i + 1 ∧ j' = j ∨ i = i' + 1 ∧ j' = j ∨ i' = i ∧ j' = j + 1 ∨ i' = i ∧ j = j' + 1) →
        i' * ny + j' < d.p.numCells ∧ Fixes 2 (planeX m) fun n _ => n ∈ Spec.WellPosed.cell d (i * ny + j) ∧ n ∈ Spec.WellPosed.cell d (i' * ny + j') := by
      intro i j i' j' hi hj hi' hj' hadj
      refine ⟨?_, ?_⟩
      · rw [hnum]
        calc i' * ny + j' < i' * ny + ny := by omega
          _ = (i' + 1) * ny := by ring
          _ ≤ nx * ny := Nat.mul_le_mul_right _ hi'
      · have hxd : ∀ b ≤ ny, ∀ a < nx, planeX m (a * (ny + 1) + b) 0 ≠ planeX m ((a + 1) * (ny + 1) + b) 0 := by
          intro b hb a ha he
          simp only [planeX, if_true, plate_point h (a := a) (b := b) (by omega) hb, plate_point h (a := a + 1) (b := b) (by omega) hb] at he
          have : lx / nx = 0 := by push_cast at he; linear_combination -he
          exact div_ne_zero hlx hx' this
        have hyd : ∀ a ≤ nx, ∀ b < ny, planeX m (a * (ny + 1) + b) 1 ≠ planeX m (a * (ny + 1) + (b + 1)) 1 := by
          intro a ha b hb he
          simp only [planeX, one_ne_zero, if_false, plate_point h (a := a) (b := b) ha (by omega), plate_point h (a := a) (b := b + 1) ha (by omega)] at he
          have : ly / ny = 0 := by push_cast at he; linear_combination -he
          exact div_ne_zero hly hy' this
        rw [hcell, hcell, plate_cell h hi hj, plate_cell h hi' hj']
        rcases hadj with ⟨rfl, rfl⟩ | ⟨rfl, rfl⟩ | ⟨rfl, rfl⟩ | ⟨rfl, rfl⟩
        · exact C160_two_points _ two_ne_zero ((i + 1) * (ny + 1) + j') ((i + 1) * (ny + 1) + (j' + 1)) (.inr (hyd _ (by omega) _ hj)) _
            fun c _ => by simp
        · exact C160_two_points _ two_ne_zero ((i' + 1) * (ny + 1) + j') ((i' + 1) * (ny + 1) + (j' + 1)) (.inr (hyd _ (by omega) _ hj')) _
            fun c _ => by simp
        · exact C160_two_points _ two_ne_zero (i' * (ny + 1) + (j + 1)) ((i' + 1) * (ny + 1) + (j + 1)) (.inl (hxd _ (by omega) _ hi)) _
            fun c _ => by simp
        · exact C160_two_points _ two_ne_zero (i' * (ny + 1) + (j' + 1)) ((i' + 1) * (ny + 1) + (j' + 1)) (.inl (hxd _ (by omega) _ hi)) _
            fun c _ => by simp
    let R : ℕ → ℕ → Prop := fun i j => j < d.p.numCells ∧ Fixes 2 (planeX m) fun n _ => n ∈ Spec.WellPosed.cell d i ∧ n ∈ Spec.WellPosed.cell d j
    have down : ∀ i j, i < nx → j < ny → Relation.ReflTransGen R (i * ny + j) 0 ∧ Relation.ReflTransGen R 0 (i * ny + j) := by
      have row : ∀ j, j < ny → Relation.ReflTransGen R (0 * ny + j) 0 ∧ Relation.ReflTransGen R 0 (0 * ny + j) := by
        intro j
        induction j with
        | zero => intro _; simpa using Relation.ReflTransGen.refl
        | succ j ih =>
          intro hj
          obtain ⟨a, b⟩ := ih (by omega)
          exact ⟨.head (hstep 0 (j + 1) 0 j hx hj hx (by omega) (by omega)) a, b.tail (hstep 0 j 0 (j + 1) hx (by omega) hx hj (by omega))⟩
      intro i
      induction i with
      | zero => intro j _ hj; exact row j hj
      | succ i ih =>
        intro j hi hj
        obtain ⟨a, b⟩ := ih j (by omega) hj
        exact ⟨.head (hstep (i + 1) j i j hi hj (by omega) hj (by omega)) a, b.tail (hstep i j (i + 1) j (by omega) hj hi hj (by omega))⟩
    intro c hc c' hc'
    obtain ⟨i, hi, j, hj, rfl⟩ := plate_index (hnum ▸ hc)
    obtain ⟨i', hi', j', hj', rfl⟩ := plate_index (hnum ▸ hc')
    exact (down i j hi hj).1.trans (down i' j' hi' hj').2
  · have hnd := (C43_nodes_distinct nx ny hx hy lx ly x0 y0 hlx hly "QUAD4" m h).1
    have hpt : m.points.getD n₁ (0, 0) ≠ m.points.getD n₂ (0, 0) := by
      rw [List.getD_eq_getElem _ _ h₁, List.getD_eq_getElem _ _ h₂]
      exact fun he => hne (hnd.getElem_inj_iff.mp he)
    refine C160_two_points _ two_ne_zero n₁ n₂ ?_ _ fun c hc => ⟨⟨h₁, (hrows c hc).1⟩, ⟨h₂, (hrows c hc).2⟩⟩
    by_contra hcon
    push Not at hcon
    exact hpt (Prod.ext hcon.1 hcon.2)

end field

section ordered
variable {K : Type*} [Field K] [LinearOrder K] [IsStrictOrderedRing K] {nx ny : ℕ} {lx ly x0 y0 : K} {m : FeMesh (K × K)}

/-- The weights of a cell. -/
theorem plate_weight (h : rectangleMesh nx ny lx ly x0 y0 "QUAD4" = .ok m) {i j : ℕ} (hi : i < nx) (hj : j < ny) {k : ℕ}
    (pts : Fin k → K × K × K) (w : Fin k → K) (q : Fin k) :
    (EleType.QUAD4.refElem 2 pts w).JxW (coordsOf (planeX m) ((planeVar m).cells.getD (i * ny + j) [])) q = lx / nx * (ly / ny) * w q := by
  have hbox := plate_box h hi hj
  have hcell := boxMap_affine .QUAD4 (.inl rfl) _ _ _ _ hbox
  have := (C81_affine_cell .QUAD4 pts w _ _ _ hcell).1 q
  refine this.trans ?_
  rw [Matrix.det_diagonal]
  congr 1
  exact Fin.prod_univ_two _

/-- C160: isotropic elasticity on a `QUAD4` rectangle mesh with two held nodes. With positive quadrature weights, `mu > 0` and
`lmbda ≥ 0` at every point, and loads that never fall with the displacement, the problem is strictly monotone and braced. -/
theorem C160_plate (hx : 0 < nx) (hy : 0 < ny) (hlx : 0 < lx) (hly : 0 < ly) (h : rectangleMesh nx ny lx ly x0 y0 "QUAD4" = .ok m)
    (d : Discretization K (List (QPoint K)) (List (QPoint K))) (hd : DiscOK d) (hv : d.p.vars = [planeVar m]) {k : ℕ}
    (pts : Fin k → K × K × K) (w : Fin k → K) (hw : ∀ q, 0 < w q) (iv : ℕ → Fin k → List K) (g g' : K) (hg : g ≠ g')
    (hp : ∀ x ∈ [g, g'], ∀ y ∈ [g, g'], ∃ q, (pts q).1 = x ∧ (pts q).2.1 = y)
    (hcells : d.cellsIn = (List.range (nx * ny)).map fun c =>
      (EleType.QUAD4.refElem 2 pts w).cellPoints (coordsOf (planeX m) ((planeVar m).cells.getD c [])) (iv c))
    (lam mu : List K → K) (hl : ∀ c q, 0 ≤ lam (iv c q)) (hm : ∀ c q, 0 < mu (iv c q)) (sf : ℕ → SurfaceForm K)
    (hk : FormKernels d 2 (formOf none (some (smallStrainStress 2 lam mu))) sf)
    (hfaces : ∀ fs ∈ d.facesIn, ∀ pts ∈ fs, ∀ q ∈ pts, 0 ≤ (Verif.Spec.fe q 0).jxw)
    (hloads : ∀ s fs, d.facesIn[s]? = some fs → ∀ pts ∈ fs, ∀ q ∈ pts, MonotoneLoad 2 (sf s) q.x q.iv)
    (rows : List ℕ) (n₁ n₂ : ℕ) (h₁ : n₁ < m.points.length) (h₂ : n₂ < m.points.length)
    (hne : n₁ ≠ n₂) (hrows : ∀ c < 2, n₁ * 2 + c ∈ rows ∧ n₂ * 2 + c ∈ rows) :
    MonotoneProblem d (planeVar m) 2 (planeX m) (formOf none (some (smallStrainStress 2 lam mu))) sf ∧
      Braced d (planeVar m) 2 (planeX m) rows := by
  refine ⟨⟨hd, hv, rfl, hk, ?_, hfaces, ?_, hloads, ?_⟩, C160_plate_braced hx hy hlx.ne' hly.ne' h d hd.wf hv rows n₁ n₂ h₁ h₂ hne hrows⟩
  · intro ps hps q hq
    rw [hcells] at hps
    obtain ⟨c, hc, rfl⟩ := List.mem_map.mp hps
    obtain ⟨i, hi, j, hj, rfl⟩ := plate_index (List.mem_range.mp hc)
    obtain ⟨q, rfl⟩ := (List.mem_ofFn' _ _).mp hq
    show 0 < (EleType.QUAD4.refElem 2 pts w).JxW _ q
    rw [plate_weight h hi hj]
    have h1 : (0 : K) < nx := by exact_mod_cast hx
    have h2 : (0 : K) < ny := by exact_mod_cast hy
    have := hw q
    positivity
  · intro ps hps q hq
    rw [hcells] at hps
    obtain ⟨c, hc, rfl⟩ := List.mem_map.mp hps
    obtain ⟨q, rfl⟩ := (List.mem_ofFn' _ _).mp hq
    exact C160_isotropic 2 lam mu _ _ (hl c q) (hm c q)
  · rintro ⟨ps, c⟩ hcp
    rw [hcells, List.mem_zipIdx_iff_getElem?] at hcp
    have hc : c < nx * ny := by
      by_contra hcon
      rw [List.getElem?_eq_none (by simpa using hcon)] at hcp
      cases hcp
    rw [List.getElem?_map, List.getElem?_range hc, Option.map_some] at hcp
    injection hcp with hcp
    have hcell : Spec.WellPosed.cell d c = (planeVar m).cells.getD c [] := by
      unfold Spec.WellPosed.cell cellNodes
      rw [hv]
      rfl
    have hlen : m.cells.length = nx * ny := by
      have := plate_cells_length h
      rwa [planeVar, List.length_map] at this
    obtain rfl : ps = _ := hcp.symm
    simp only [hcell]
    exact C160_plate_cells hx hy hlx.ne' hly.ne' h _ pts w (iv c) g g' hg hp c (hlen ▸ hc)

/-- C160: such a plate has at most one equilibrium with given displacements at the held nodes. -/
theorem C160_plate_unique (hx : 0 < nx) (hy : 0 < ny) (hlx : 0 < lx) (hly : 0 < ly) (h : rectangleMesh nx ny lx ly x0 y0 "QUAD4" = .ok m)
    (d : Discretization K (List (QPoint K)) (List (QPoint K))) (hd : DiscOK d) (hv : d.p.vars = [planeVar m]) {k : ℕ}
    (pts : Fin k → K × K × K) (w : Fin k → K) (hw : ∀ q, 0 < w q) (iv : ℕ → Fin k → List K) (g g' : K) (hg : g ≠ g')
    (hp : ∀ x ∈ [g, g'], ∀ y ∈ [g, g'], ∃ q, (pts q).1 = x ∧ (pts q).2.1 = y)
    (hcells : d.cellsIn = (List.range (nx * ny)).map fun c =>
      (EleType.QUAD4.refElem 2 pts w).cellPoints (coordsOf (planeX m) ((planeVar m).cells.getD c [])) (iv c))
    (lam mu : List K → K) (hl : ∀ c q, 0 ≤ lam (iv c q)) (hm : ∀ c q, 0 < mu (iv c q)) (sf : ℕ → SurfaceForm K)
    (hk : FormKernels d 2 (formOf none (some (smallStrainStress 2 lam mu))) sf)
    (hfaces : ∀ fs ∈ d.facesIn, ∀ pts ∈ fs, ∀ q ∈ pts, 0 ≤ (Verif.Spec.fe q 0).jxw)
    (hloads : ∀ s fs, d.facesIn[s]? = some fs → ∀ pts ∈ fs, ∀ q ∈ pts, MonotoneLoad 2 (sf s) q.x q.iv)
    (bc : DirichletBC K) (hbc : CanonicalBC d.p.n bc) (n₁ n₂ : ℕ) (h₁ : n₁ < m.points.length) (h₂ : n₂ < m.points.length)
    (hne : n₁ ≠ n₂) (hrows : ∀ c < 2, n₁ * 2 + c ∈ bc.rows ∧ n₂ * 2 + c ∈ bc.rows) (u u' : List K)
    (hu : Equilibrium d bc u) (hu' : Equilibrium d bc u') : u = u' := by
  obtain ⟨hmono, hb⟩ := C160_plate hx hy hlx hly h d hd hv pts w hw iv g g' hg hp hcells lam mu hl hm sf hk hfaces hloads bc.rows n₁ n₂ h₁ h₂
    hne hrows
  refine C160_unique hmono hb u u' hu.1 hu'.1 (fun i hi => ?_) hu.2.2 hu'.2.2
  obtain ⟨k, hk, rfl⟩ := mem_rows_getD hbc hi
  rw [hu.2.1 k hk, hu'.2.1 k hk]

end ordered

section examples

/-- A plate of two cells with four points each. -/
def exSheetPts (q : Fin 4) : ℚ × ℚ × ℚ := (if q.val % 2 = 0 then 1 / 4 else 3 / 4, if q.val / 2 = 0 then 1 / 4 else 3 / 4, 0)

def exSheetMesh : FeMesh (ℚ × ℚ) :=
  ⟨[(0, 0), (0, 1), (2, 0), (2, 1), (4, 0), (4, 1)], [[0, 2, 3, 1], [2, 4, 5, 3]], "QUAD4"⟩

theorem exSheetMesh_eq : rectangleMesh 2 1 (4 : ℚ) 1 0 0 "QUAD4" = .ok exSheetMesh := by decide +kernel

def exSheetForm : WeakForm ℚ := formOf none (some (smallStrainStress 2 (fun _ => 1) (fun iv => iv.getD 0 1)))

/-- The shear modulus differs from point to point. -/
def exSheetIv (c : ℕ) (q : Fin 4) : List ℚ := [1 + c + q.val]

/-- Elasticity on the plate. -/
noncomputable def exSheet : Discretization ℚ (List (QPoint ℚ)) (List (QPoint ℚ)) where
  p := ⟨[planeVar exSheetMesh], 2, [], .full⟩
  kv := fun q => ⟨weakFormKernel [planeVar exSheetMesh] 2 exSheetForm q.1 q.2,
    (List.range 64).map fun t => (weakFormKernel [planeVar exSheetMesh] 2 exSheetForm q.1 ((List.range 8).map fun j => if j = t % 8 then 1 else 0)).getD (t / 8) 0⟩
  kf := fun _ q => ⟨surfaceFormKernel [planeVar exSheetMesh] (fun _ _ _ => []) q.1 q.2, List.replicate 64 0⟩
  zv := []
  zf := []
  cellsIn := (List.range (2 * 1)).map fun c =>
    (EleType.QUAD4.refElem 2 exSheetPts fun _ => 1 / 4).cellPoints (coordsOf (planeX exSheetMesh) ((planeVar exSheetMesh).cells.getD c [])) (exSheetIv c)
  facesIn := []
  batch := 1

theorem exSheet_ok : DiscOK exSheet where
  wf := by
    constructor
    · intro v hv
      simp only [exSheet, List.mem_cons, List.not_mem_nil, or_false] at hv
      subst hv
      exact ⟨by decide, by decide, by decide⟩
    · intro fc hfc
      simp [exSheet] at hfc
  batch := Nat.one_pos
  cells := rfl
  faces := .nil
  volJac := fun a => by simp [exSheet]; rfl
  volRes := fun a => weakFormKernel_length _ _ _ _ _
  faceJac := fun k x => by simp [exSheet]; rfl
  faceRes := fun k x => surfaceFormKernel_length [planeVar exSheetMesh] (fun _ _ _ => []) x.1 x.2

theorem exSheet_kernels : FormKernels exSheet 2 exSheetForm (fun _ _ _ _ => []) where
  vol := fun _ _ => rfl
  surf := fun _ _ _ => rfl
  cellPts := by
    intro pts hpts q hq
    obtain ⟨c, _, rfl⟩ := List.mem_map.mp hpts
    obtain ⟨q, rfl⟩ := (List.mem_ofFn' _ _).mp hq
    exact ⟨by simp [RefElem.fePoint]; rfl, by simp [RefElem.fePoint]; rfl⟩
  facePts := by
    intro fs hfs
    simp [exSheet] at hfs

/-- The left edge moved by one, one corner of the right edge held in one direction. -/
def exSheetBC : DirichletBC ℚ :=
  ⟨[0, 1, 2, 3, 9], [true, true, true, true, false, false, false, false, false, true, false, false], [-1, 0, -1, 0, 0], 12⟩

theorem exSheet_problem : MonotoneProblem exSheet (planeVar exSheetMesh) 2 (planeX exSheetMesh) exSheetForm (fun _ _ _ _ => []) ∧
    Braced exSheet (planeVar exSheetMesh) 2 (planeX exSheetMesh) exSheetBC.rows :=
  C160_plate (by norm_num) (by norm_num) (by norm_num) (by norm_num) exSheetMesh_eq exSheet exSheet_ok rfl exSheetPts (fun _ => 1 / 4)
    (fun _ => by norm_num) exSheetIv (1 / 4) (3 / 4) (by norm_num) (by decide +kernel) rfl _ _ (fun _ _ => by norm_num)
    (fun c q => by simp only [exSheetIv, List.getD_cons_zero]; positivity) (fun _ _ _ _ => []) exSheet_kernels
    (fun fs hfs => by simp [exSheet] at hfs) (fun s fs hfs => by simp [exSheet] at hfs) _ 0 1 (by decide) (by decide) (by decide) (by decide)

example (u u' : List ℚ) (hu : Equilibrium exSheet exSheetBC u) (hu' : Equilibrium exSheet exSheetBC u') : u = u' :=
  C160_plate_unique (by norm_num) (by norm_num) (by norm_num) (by norm_num) exSheetMesh_eq exSheet exSheet_ok rfl exSheetPts (fun _ => 1 / 4)
    (fun _ => by norm_num) exSheetIv (1 / 4) (3 / 4) (by norm_num) (by decide +kernel) rfl (fun _ => 1) (fun iv => iv.getD 0 1) (fun _ _ => by norm_num)
    (fun c q => by simp only [exSheetIv, List.getD_cons_zero]; positivity) (fun _ _ _ _ => []) exSheet_kernels
    (fun fs hfs => by simp [exSheet] at hfs) (fun s fs hfs => by simp [exSheet] at hfs) exSheetBC
    ⟨by decide, by decide, by decide, by decide, by decide, by decide⟩ 0 1 (by decide) (by decide) (by decide) (by decide) u u' hu hu'

end examples

end Verif.Props
