import Verif.Props.Density
import Verif.Props.Fit

/-!
# C100: density fields on elements located by Newton's method

The linear system of a Newton step uses the matrix `∂x_k/∂ξ_a` with the rows numbered by `a`, which is the transpose of the
derivative of the map. The step is right where that matrix is symmetric.
-/

namespace Verif.Props

open Verif.Model Verif.Spec

section Newton
variable {K : Type} [Field K] [LinearOrder K] {d : ℕ}

theorem solveLin_eq (J : Matrix (Fin d) (Fin d) K) (r δ : Pt K d) (hJ : J.det ≠ 0) (h : J.mulVec δ = r) : solveLin J r = some δ := by
  unfold solveLin
  rw [if_neg hJ]
  congr 1
  funext i
  rw [← h, Matrix.mulVec_mulVec, Matrix.adjugate_mul, Matrix.smul_mulVec, Matrix.one_mulVec, Pi.smul_apply, smul_eq_mul,
    mul_div_cancel_left₀ _ hJ]

/-- The map of the element is `x(ξ) = x₀ + M ξ`. -/
def AffineMap (e : EleType) (X : List (Pt K d)) (x0 : Pt K d) (M : Matrix (Fin d) (Fin d) K) : Prop :=
  (∀ xi k, mapPoint (basixAt e xi) X k = x0 k + M.mulVec xi k) ∧ ∀ xi, mapJacobian e X xi = M.transpose

theorem newtonResidual_affine {e : EleType} {X : List (Pt K d)} {x0 : Pt K d} {M : Matrix (Fin d) (Fin d) K} (hX : AffineMap e X x0 M)
    (p xs : Pt K d) (hp : ∀ k, x0 k + M.mulVec xs k = p k) (xi : Pt K d) (k : Fin d) :
    mapPoint (basixAt e xi) X k - p k = M.mulVec (fun i => xi i - xs i) k := by
  rw [hX.1, ← hp]
  have : M.mulVec (fun i => xi i - xs i) = M.mulVec xi - M.mulVec xs := by
    rw [← Matrix.mulVec_sub]
    rfl
  rw [this]
  simp

theorem step_affine {e : EleType} {X : List (Pt K d)} {x0 : Pt K d} {M : Matrix (Fin d) (Fin d) K} (hX : AffineMap e X x0 M)
    (hM : M.det ≠ 0) (p xs : Pt K d) (hp : ∀ k, x0 k + M.mulVec xs k = p k) (xi δ : Pt K d)
    (hδ : M.transpose.mulVec δ = M.mulVec fun i => xi i - xs i) : newtonStep e X p xi = some fun k => xi k - δ k := by
  unfold newtonStep
  have : (fun k => mapPoint (basixAt e xi) X k - p k) = M.transpose.mulVec δ := by
    funext k
    rw [newtonResidual_affine hX p xs hp, hδ]
  rw [this, solveLin_eq (δ := δ)]
  · rfl
  · rw [hX.2, Matrix.det_transpose]
    exact hM
  · rw [hX.2]

variable [IsStrictOrderedRing K]

/-- The iteration fails when a quantity that bounds the squared residual from below stays above `1e-12`. -/
theorem newton_lost (e : EleType) (X : List (Pt K d)) (p : Pt K d) (T : Pt K d → K) (hT : ∀ xi, T xi ≤ residualSq e X p xi)
    (hstep : ∀ xi, ∃ xi', newtonStep e X p xi = some xi' ∧ (1 / 10 ^ 12 ≤ T xi → 1 / 10 ^ 12 ≤ T xi')) (n : ℕ) (xi : Pt K d) (last : K)
    (h : 1 / 10 ^ 12 ≤ T xi) (hl : 0 < n ∨ 1 / 10 ^ 12 ≤ last) : newtonSingle e X p n xi last = none := by
  induction n generalizing xi last with
  | zero =>
    unfold newtonSingle
    rw [if_neg]
    rcases hl with hl | hl
    · exact absurd hl (lt_irrefl _)
    · exact not_lt.2 hl
  | succ n ih =>
    unfold newtonSingle
    simp only
    have hr := h.trans (hT xi)
    split
    · rfl
    · rw [if_neg]
      · obtain ⟨xi', h1, h2⟩ := hstep xi
        rw [h1]
        exact ih xi' _ (h2 h) (Or.inr hr)
      · rw [not_lt]
        refine le_trans ?_ hr
        norm_num

/-- A point that no candidate locates gets the density of points far from the mesh. -/
theorem nowhere_far (A : DensityArgs K d) (f : Sdf K d) (hf : A.field = .ok f) (hl : A.linearSimplex = false) (p : Pt K d)
    (h : ∀ e ∈ A.candidates p, newtonSingle A.eleType (A.elemNodes e) p 20 (refCentroid A.eleType) 0 = none) :
    f.call p = A.threshold - A.farDensity p := by
  rw [(field_ok hf).1]
  congr 1
  unfold densitySingle
  have key : ∀ es : List ℕ, (∀ e ∈ es, newtonSingle A.eleType (A.elemNodes e) p 20 (refCentroid A.eleType) 0 = none) →
      locate A.locator p es none = .inr none := by
    intro es hes
    induction es with
    | nil => rfl
    | cons e es ih =>
      have h1 : A.locator.inverse p e = none := by
        show (if A.linearSimplex then _ else _) = none
        rw [hl]
        exact hes e (by simp)
      unfold locate
      rw [h1]
      exact ih fun x hx => hes x (by simp [hx])
  rw [key _ h]
  rfl

theorem locator_newton (A : DensityArgs K d) (hl : A.linearSimplex = false) (p : Pt K d) (e : ℕ) :
    A.locator.inverse p e = newtonSingle A.eleType (A.elemNodes e) p 20 (refCentroid A.eleType) 0 := by
  show (if A.linearSimplex then _ else _) = _
  rw [hl]
  rfl

theorem locator_newtonBatch (A : DensityArgs K d) (hl : A.linearSimplex = false) (ps : List (Pt K d)) (es : List ℕ) :
    A.locator.inverseBatch ps es = newtonBatch A.eleType (es.map A.elemNodes) ps 20 (ps.map fun _ => refCentroid A.eleType) := by
  show (if A.linearSimplex then _ else _) = _
  rw [hl]
  rfl

/-- A square with corners `x₀`, `x₀ + u`, `x₀ + u + v`, `x₀ + v`, where `u = (a, b)` and `v = (-b, a)`, in this order: turned by
the angle of `u`. The last two are exchanged in the order of Basix. -/
def turnedSquare (x0 : Pt K 2) (a b : K) : List (Pt K 2) :=
  [x0, ![x0 0 + a, x0 1 + b], ![x0 0 - b, x0 1 + a], ![x0 0 + a - b, x0 1 + b + a]]

omit [LinearOrder K] [IsStrictOrderedRing K] in
theorem turnedSquare_affine (x0 : Pt K 2) (a b : K) : AffineMap .QUAD4 (turnedSquare x0 a b) x0 !![a, -b; b, a] := by
  constructor
  · intro xi k
    fin_cases k <;> simp [mapPoint, basixAt, basixValues, turnedSquare, coordAt, Matrix.mulVec, dotProduct, Fin.sum_univ_two] <;> ring
  · intro xi
    ext i j
    fin_cases i <;> fin_cases j <;>
      simp [mapJacobian, mapPoint, basixGrad, basixValues, turnedSquare, coordAt] <;> ring

theorem refCentroid_quad : (refCentroid .QUAD4 : Pt K 2) = fun _ => 1 / 2 := by
  funext k
  fin_cases k <;> simp [refCentroid, basixVertices] <;> norm_num

/-- **C100** (turned squares, violated). A point at distance at least `1e-6` from the centre of a square cell that is turned by an
angle between 30° and 150° with respect to the reference square is not located by Newton's method, wherever it lies in the cell. -/
theorem C100_turned_square_lost (x0 : Pt K 2) (a b : K) (hb : b ≠ 0) (hangle : a ^ 2 ≤ 3 * b ^ 2) (p : Pt K 2)
    (hp : 1 / 10 ^ 12 ≤ (p 0 - (x0 0 + (a - b) / 2)) ^ 2 + (p 1 - (x0 1 + (a + b) / 2)) ^ 2) :
    newtonSingle .QUAD4 (turnedSquare x0 a b) p 20 (refCentroid .QUAD4) 0 = none := by
  have hX := turnedSquare_affine x0 a b
  have hb2 : 0 < b ^ 2 := by positivity
  have hs : 0 < a ^ 2 + b ^ 2 := by positivity
  have hdet : (!![a, -b; b, a] : Matrix (Fin 2) (Fin 2) K).det = a ^ 2 + b ^ 2 := by
    rw [Matrix.det_fin_two_of]
    ring
  obtain ⟨xs, hxs⟩ : ∃ xs : Pt K 2, xs = ![(a * (p 0 - x0 0) + b * (p 1 - x0 1)) / (a ^ 2 + b ^ 2),
      (a * (p 1 - x0 1) - b * (p 0 - x0 0)) / (a ^ 2 + b ^ 2)] := ⟨_, rfl⟩
  have hsol : ∀ k, x0 k + (!![a, -b; b, a] : Matrix (Fin 2) (Fin 2) K).mulVec xs k = p k := by
    intro k
    rw [hxs]
    fin_cases k
    · simp [Matrix.mulVec, dotProduct, Fin.sum_univ_two]
      field_simp
      ring
    · simp [Matrix.mulVec, dotProduct, Fin.sum_univ_two]
      field_simp
      ring
  have hres : ∀ xi, residualSq .QUAD4 (turnedSquare x0 a b) p xi = (a ^ 2 + b ^ 2) * ((xi 0 - xs 0) ^ 2 + (xi 1 - xs 1) ^ 2) := by
    intro xi
    unfold residualSq
    rw [Fin.sum_univ_two, newtonResidual_affine hX p xs hsol, newtonResidual_affine hX p xs hsol]
    simp [Matrix.mulVec, dotProduct, Fin.sum_univ_two]
    ring
  apply newton_lost _ _ _ (residualSq .QUAD4 (turnedSquare x0 a b) p) (fun _ => le_rfl)
  · intro xi
    refine ⟨_, step_affine hX (by rw [hdet]; exact hs.ne') p xs hsol xi
      ![((a ^ 2 - b ^ 2) * (xi 0 - xs 0) - 2 * a * b * (xi 1 - xs 1)) / (a ^ 2 + b ^ 2),
        (2 * a * b * (xi 0 - xs 0) + (a ^ 2 - b ^ 2) * (xi 1 - xs 1)) / (a ^ 2 + b ^ 2)] ?_, fun h => h.trans ?_⟩
    · funext k
      fin_cases k
      · simp [Matrix.mulVec, dotProduct, Fin.sum_univ_two]
        field_simp
        ring
      · simp [Matrix.mulVec, dotProduct, Fin.sum_univ_two]
        field_simp
        ring
    · rw [hres, hres]
      have e : (a ^ 2 + b ^ 2) * ((xi 0 - ((a ^ 2 - b ^ 2) * (xi 0 - xs 0) - 2 * a * b * (xi 1 - xs 1)) / (a ^ 2 + b ^ 2) - xs 0) ^ 2 +
          (xi 1 - (2 * a * b * (xi 0 - xs 0) + (a ^ 2 - b ^ 2) * (xi 1 - xs 1)) / (a ^ 2 + b ^ 2) - xs 1) ^ 2) =
          4 * b ^ 2 * ((xi 0 - xs 0) ^ 2 + (xi 1 - xs 1) ^ 2) := by
        field_simp
        ring
      simp only [Matrix.cons_val_zero, Matrix.cons_val_one]
      rw [e]
      apply mul_le_mul_of_nonneg_right
      · linarith
      · positivity
  · rw [hres, refCentroid_quad, hxs]
    refine hp.trans (le_of_eq ?_)
    simp only [Matrix.cons_val_zero, Matrix.cons_val_one]
    field_simp
    ring
  · exact Or.inl (by norm_num)

/-- The nodes of a cubic cell of a structured grid with lowest corner `o` and side `h`, in the order of Basix. -/
def gridCube (o : Pt K 3) (h : K) : List (Pt K 3) :=
  [![o 0, o 1 + h, o 2 + h], ![o 0, o 1, o 2 + h], ![o 0, o 1 + h, o 2], ![o 0, o 1, o 2],
    ![o 0 + h, o 1 + h, o 2 + h], ![o 0 + h, o 1, o 2 + h], ![o 0 + h, o 1 + h, o 2], ![o 0 + h, o 1, o 2]]

omit [LinearOrder K] [IsStrictOrderedRing K] in
theorem gridCube_affine (o : Pt K 3) (h : K) :
    AffineMap .HEX8 (gridCube o h) ![o 0, o 1 + h, o 2 + h] !![0, 0, h; -h, 0, 0; 0, -h, 0] := by
  constructor
  · intro xi k
    fin_cases k <;> simp [mapPoint, basixAt, basixValues, gridCube, coordAt, Matrix.mulVec, dotProduct, Fin.sum_univ_three] <;> ring
  · intro xi
    ext i j
    fin_cases i <;> fin_cases j <;>
      simp [mapJacobian, mapPoint, basixGrad, basixValues, gridCube, coordAt] <;> ring

theorem refCentroid_hex : (refCentroid .HEX8 : Pt K 3) = fun _ => 1 / 2 := by
  funext k
  fin_cases k <;> simp [refCentroid, basixVertices] <;> norm_num

/-- **C100** (cubes, violated). In a cubic cell with the node order of structured grids, Newton's method locates no point at
distance `1e-6` or more from the line through the centre of the cell in direction `(1, -1, 1)`. The squared distance to that line
is `|q|² - (q · (1, -1, 1))² / 3`, where `q` is measured from the centre. -/
theorem C100_grid_cube_lost (o : Pt K 3) (h : K) (hh : h ≠ 0) (p q : Pt K 3) (hq : ∀ k, q k = p k - (o k + h / 2))
    (hp : 1 / 10 ^ 12 ≤ q 0 ^ 2 + q 1 ^ 2 + q 2 ^ 2 - (q 0 - q 1 + q 2) ^ 2 / 3) :
    newtonSingle .HEX8 (gridCube o h) p 20 (refCentroid .HEX8) 0 = none := by
  have hX := gridCube_affine o h
  have hdet : (!![0, 0, h; -h, 0, 0; 0, -h, 0] : Matrix (Fin 3) (Fin 3) K).det ≠ 0 := by
    rw [Matrix.det_fin_three]
    simp [hh]
  obtain ⟨xs, hxs⟩ : ∃ xs : Pt K 3, xs = ![(o 1 + h - p 1) / h, (o 2 + h - p 2) / h, (p 0 - o 0) / h] := ⟨_, rfl⟩
  have hsol : ∀ k, (![o 0, o 1 + h, o 2 + h] : Pt K 3) k +
      (!![0, 0, h; -h, 0, 0; 0, -h, 0] : Matrix (Fin 3) (Fin 3) K).mulVec xs k = p k := by
    intro k
    rw [hxs]
    fin_cases k <;> simp [Matrix.mulVec, dotProduct, Fin.sum_univ_three] <;> field_simp <;> ring
  obtain ⟨T, hT⟩ : ∃ T : Pt K 3 → K, T = fun xi => h ^ 2 * ((xi 0 - xs 0) ^ 2 + (xi 1 - xs 1) ^ 2 + (xi 2 - xs 2) ^ 2 -
      ((xi 0 - xs 0) - (xi 1 - xs 1) + (xi 2 - xs 2)) ^ 2 / 3) := ⟨_, rfl⟩
  have hres : ∀ xi, residualSq .HEX8 (gridCube o h) p xi =
      h ^ 2 * ((xi 0 - xs 0) ^ 2 + (xi 1 - xs 1) ^ 2 + (xi 2 - xs 2) ^ 2) := by
    intro xi
    unfold residualSq
    rw [Fin.sum_univ_three, newtonResidual_affine hX p xs hsol, newtonResidual_affine hX p xs hsol, newtonResidual_affine hX p xs hsol]
    simp [Matrix.mulVec, dotProduct, Fin.sum_univ_three]
    ring
  apply newton_lost _ _ _ T
  · intro xi
    rw [hres, hT]
    apply mul_le_mul_of_nonneg_left _ (sq_nonneg h)
    have := sq_nonneg ((xi 0 - xs 0) - (xi 1 - xs 1) + (xi 2 - xs 2))
    linarith
  · intro xi
    refine ⟨_, step_affine hX hdet p xs hsol xi ![-(xi 1 - xs 1), -(xi 2 - xs 2), xi 0 - xs 0] ?_, fun h0 => ?_⟩
    · funext k
      fin_cases k <;> simp [Matrix.mulVec, dotProduct, Fin.sum_univ_three, Matrix.transpose_apply] <;> ring
    · have e : T (fun k => xi k - (![-(xi 1 - xs 1), -(xi 2 - xs 2), xi 0 - xs 0] : Pt K 3) k) = 3 * T xi := by
        rw [hT]
        simp
        ring
      rw [e]
      have : (0 : K) < 1 / 10 ^ 12 := by positivity
      linarith
  · rw [hT, refCentroid_hex, hxs]
    refine hp.trans (le_of_eq ?_)
    rw [hq, hq, hq]
    simp only [Matrix.cons_val_zero, Matrix.cons_val_one, Matrix.cons_val_two, Matrix.tail_cons, Matrix.head_cons, Matrix.cons_val]
    field_simp
    ring
  · exact Or.inl (by norm_num)

/-- Cells that work. If the derivative of an affine element is a symmetric invertible matrix, as for a box with edges
along the axes in the standard order, Newton's method finds reference coordinates that are mapped to within `1e-10` of the point. -/
theorem newton_symmetric {e : EleType} {X : List (Pt K d)} {x0 : Pt K d} {M : Matrix (Fin d) (Fin d) K} (hX : AffineMap e X x0 M)
    (hM : M.det ≠ 0) (hsym : M.transpose = M) (p xs : Pt K d) (hp : ∀ k, x0 k + M.mulVec xs k = p k) (c : Pt K d)
    (hnear : residualSq e X p c ≤ 10 ^ 20) (last : K) :
    ∃ xi, newtonSingle e X p 20 c last = some xi ∧ (xi = c ∨ xi = xs) ∧ residualSq e X p xi < 1 / 10 ^ 20 := by
  have hz : residualSq e X p xs = 0 := by
    unfold residualSq
    apply Finset.sum_eq_zero
    intro k _
    rw [newtonResidual_affine hX p xs hp]
    simp [Matrix.mulVec, dotProduct]
  have h0 : (0 : K) < 1 / 10 ^ 20 := by positivity
  rw [show (20 : ℕ) = 18 + 1 + 1 from rfl]
  unfold newtonSingle
  simp only
  rw [if_neg (not_lt.2 hnear)]
  split
  · rename_i h
    exact ⟨c, rfl, Or.inl rfl, h⟩
  · rw [step_affine hX hM p xs hp c (fun i => c i - xs i) (by rw [hsym])]
    have hx : (fun k => c k - (c k - xs k)) = xs := by
      funext k
      ring
    simp only [hx]
    unfold newtonSingle
    simp only
    rw [hz, if_neg (not_lt.2 (by positivity)), if_pos h0]
    exact ⟨xs, rfl, Or.inr rfl, by rw [hz]; exact h0⟩

/-- The search stops at a candidate whose reference coordinates pass the containment test, if there is one. -/
theorem locate_inside {P X : Type} (L : Locator P X K) (p : P) (es : List ℕ) (best : NearMiss X K)
    (h : ∃ e ∈ es, ∃ xi, L.inverse p e = some xi ∧ L.inside xi = true) :
    ∃ e ∈ es, ∃ xi, L.inverse p e = some xi ∧ L.inside xi = true ∧ locate L p es best = .inl (L.value e xi) := by
  induction es generalizing best with
  | nil =>
    obtain ⟨e, he, _⟩ := h
    cases he
  | cons e es ih =>
    have tail : ∀ b, (∀ xi, L.inverse p e = some xi → L.inside xi = false) → locate L p (e :: es) best = locate L p es b →
        ∃ e' ∈ e :: es, ∃ xi, L.inverse p e' = some xi ∧ L.inside xi = true ∧ locate L p (e :: es) best = .inl (L.value e' xi) := by
      intro b hno hl
      obtain ⟨e', he', xi, h1, h2⟩ := h
      rcases List.mem_cons.1 he' with rfl | he'
      · rw [hno xi h1] at h2
        cases h2
      · obtain ⟨x, hx, xi, h3⟩ := ih b ⟨e', he', xi, h1, h2⟩
        exact ⟨x, by simp [hx], xi, by rw [hl]; exact h3⟩
    cases hi : L.inverse p e with
    | none => exact tail best (by simp [hi]) (by simp [locate, hi])
    | some xi =>
      by_cases h1 : L.inside xi = true
      · exact ⟨e, by simp, xi, hi, h1, by simp [locate, hi, h1]⟩
      · have hno : ∀ y, L.inverse p e = some y → L.inside y = false := by
          intro y hy
          rw [hi] at hy
          cases hy
          simpa using h1
        by_cases h2 : improves (L.dist xi) best = true
        · exact tail (some (L.dist xi, xi, e)) hno (by simp [locate, hi, h1, h2])
        · exact tail best hno (by simp [locate, hi, h1, h2])

/-- Cell `e` is the box with lowest corner `lo` and edges `sz` along the axes, its nodes in the order of the reference corners. -/
def BoxCell (A : DensityArgs K d) (e : ℕ) (lo sz : Pt K d) : Prop :=
  A.elemNodes e = (basixVertices A.eleType).map fun v k => lo k + ((v.getD k 0 : ℕ) : K) * sz k

/-- Multilinear interpolation of the densities at the corners of cell `e`. -/
def multilinear (A : DensityArgs K d) (e : ℕ) (xi : Pt K d) : K :=
  (List.zipWith (fun v r => (∏ k : Fin d, if v.getD k 0 = 1 then xi k else 1 - xi k) * r) (basixVertices A.eleType) (A.elemRho e)).sum

omit [LinearOrder K] [IsStrictOrderedRing K] in
theorem box_affine_quad (lo sz : Pt K 2) :
    AffineMap .QUAD4 ((basixVertices .QUAD4).map fun v k => lo k + ((v.getD k 0 : ℕ) : K) * sz k) lo (Matrix.diagonal sz) := by
  constructor
  · intro xi k
    rw [Matrix.mulVec_diagonal]
    fin_cases k <;> simp [mapPoint, basixAt, basixValues, basixVertices, coordAt] <;> ring
  · intro xi
    rw [Matrix.diagonal_transpose]
    ext i j
    fin_cases i <;> fin_cases j <;>
      simp [mapJacobian, mapPoint, basixGrad, basixValues, basixVertices, coordAt] <;> ring

omit [LinearOrder K] [IsStrictOrderedRing K] in
theorem box_affine_hex (lo sz : Pt K 3) :
    AffineMap .HEX8 ((basixVertices .HEX8).map fun v k => lo k + ((v.getD k 0 : ℕ) : K) * sz k) lo (Matrix.diagonal sz) := by
  constructor
  · intro xi k
    rw [Matrix.mulVec_diagonal]
    fin_cases k <;> simp [mapPoint, basixAt, basixValues, basixVertices, coordAt] <;> ring
  · intro xi
    rw [Matrix.diagonal_transpose]
    ext i j
    fin_cases i <;> fin_cases j <;>
      simp [mapJacobian, mapPoint, basixGrad, basixValues, basixVertices, coordAt] <;> ring

/-- Rectangles with four nodes and boxes with eight. -/
def BoxType (A : DensityArgs K d) : Prop := (d = 2 ∧ A.eleType = .QUAD4) ∨ (d = 3 ∧ A.eleType = .HEX8)

omit [IsStrictOrderedRing K] in
theorem boxType_simplex {A : DensityArgs K d} (h : BoxType A) : A.linearSimplex = false ∧ A.eleType.isSimplex = false := by
  unfold DensityArgs.linearSimplex
  rcases h with ⟨_, h⟩ | ⟨_, h⟩ <;> rw [h] <;> decide

omit [IsStrictOrderedRing K] in
theorem box_affine {A : DensityArgs K d} (hT : BoxType A) {e : ℕ} {lo sz : Pt K d} (hb : BoxCell A e lo sz) :
    AffineMap A.eleType (A.elemNodes e) lo (Matrix.diagonal sz) := by
  rw [hb]
  rcases hT with ⟨rfl, h⟩ | ⟨rfl, h⟩
  · rw [h]
    exact box_affine_quad lo sz
  · rw [h]
    exact box_affine_hex lo sz

omit [IsStrictOrderedRing K] in
theorem box_value {A : DensityArgs K d} (hT : BoxType A) (e : ℕ) (xi : Pt K d) : A.interpolated e xi = multilinear A e xi := by
  unfold DensityArgs.interpolated
  rw [(boxType_simplex hT).1]
  unfold multilinear
  have key : basixAt A.eleType xi = (basixVertices A.eleType).map fun v => ∏ k : Fin d, if v.getD k 0 = 1 then xi k else 1 - xi k := by
    rcases hT with ⟨rfl, h⟩ | ⟨rfl, h⟩
    · rw [h]
      simp [basixAt, basixValues, basixVertices, coordAt, Fin.prod_univ_two]
    · rw [h]
      simp [basixAt, basixValues, basixVertices, coordAt, Fin.prod_univ_three]
  rw [key]
  simp [List.zipWith_map_left]

theorem box_centroid {A : DensityArgs K d} (hT : BoxType A) : (refCentroid A.eleType : Pt K d) = fun _ => 1 / 2 := by
  rcases hT with ⟨rfl, h⟩ | ⟨rfl, h⟩
  · rw [h]
    exact refCentroid_quad
  · rw [h]
    exact refCentroid_hex

/-- **C100** (boxes along the axes). If the candidates are boxes along the axes with nodes in the order of the reference element,
no more than `1e10` away, and one of them contains the point, the field is the threshold minus the density interpolated in a
candidate, at a point of it (up to `1e-6` in reference coordinates) at distance less than `1e-10` from the point. Missing: other
cells, for which the statement is false (`C100_grid_field_lost`, `C100_turned_square_lost`). -/
theorem C100_boxes_interpolated_partial (A : DensityArgs K d) (hT : BoxType A) (f : Sdf K d) (hf : A.field = .ok f) (p : Pt K d)
    (lo sz : ℕ → Pt K d) (hb : ∀ e ∈ A.candidates p, BoxCell A e (lo e) (sz e)) (hs : ∀ e ∈ A.candidates p, ∀ k, 0 < sz e k)
    (hd : ∀ e ∈ A.candidates p, ∑ k, (lo e k + sz e k / 2 - p k) ^ 2 ≤ 10 ^ 20)
    (hin : ∃ e ∈ A.candidates p, ∀ k, lo e k ≤ p k ∧ p k ≤ lo e k + sz e k) :
    ∃ e ∈ A.candidates p, ∃ xi : Pt K d, (∀ k, -(1 / 10 ^ 6) ≤ xi k ∧ xi k ≤ 1 + 1 / 10 ^ 6) ∧
      ∑ k, (lo e k + xi k * sz e k - p k) ^ 2 < 1 / 10 ^ 20 ∧ f.call p = A.threshold - multilinear A e xi := by
  obtain ⟨hl, hns⟩ := boxType_simplex hT
  have hins : ∀ xi : Pt K d, insideRef A.eleType xi = true ↔ ∀ k, -(1 / 10 ^ 6) ≤ xi k ∧ xi k ≤ 1 + 1 / 10 ^ 6 := by
    intro xi
    unfold insideRef
    rw [hns]
    simp [List.all_eq_true, forall_and]
  have hres : ∀ e ∈ A.candidates p, ∀ xi, residualSq A.eleType (A.elemNodes e) p xi = ∑ k, (lo e k + xi k * sz e k - p k) ^ 2 := by
    intro e he xi
    unfold residualSq
    apply Finset.sum_congr rfl
    intro k _
    rw [(box_affine hT (hb e he)).1, Matrix.mulVec_diagonal, mul_comm]
  have hinv : ∀ e ∈ A.candidates p, ∃ xi, A.locator.inverse p e = some xi ∧
      (xi = (fun _ => 1 / 2) ∨ xi = fun k => (p k - lo e k) / sz e k) ∧ residualSq A.eleType (A.elemNodes e) p xi < 1 / 10 ^ 20 := by
    intro e he
    have hdet : (Matrix.diagonal (sz e)).det ≠ 0 := by
      rw [Matrix.det_diagonal]
      exact Finset.prod_ne_zero_iff.2 fun k _ => (hs e he k).ne'
    have hsol : ∀ k, lo e k + (Matrix.diagonal (sz e)).mulVec (fun k => (p k - lo e k) / sz e k) k = p k := by
      intro k
      rw [Matrix.mulVec_diagonal, mul_div_cancel₀ _ (hs e he k).ne']
      ring
    have hr : residualSq A.eleType (A.elemNodes e) p (refCentroid A.eleType) ≤ 10 ^ 20 := by
      rw [hres e he, box_centroid hT]
      refine le_trans (le_of_eq ?_) (hd e he)
      apply Finset.sum_congr rfl
      intro k _
      ring
    obtain ⟨xi, h1, h2, h3⟩ := newton_symmetric (box_affine hT (hb e he)) hdet (Matrix.diagonal_transpose _) p _ hsol _ hr 0
    refine ⟨xi, ?_, ?_, h3⟩
    · show (if A.linearSimplex then _ else _) = _
      rw [hl]
      exact h1
    · rwa [box_centroid hT] at h2
  have t0 : (0 : K) < 1 / 10 ^ 6 := by positivity
  obtain ⟨e, he, xi, h1, h2, h3⟩ := locate_inside A.locator p (A.candidates p) none (by
    obtain ⟨e, he, hc⟩ := hin
    obtain ⟨xi, h1, h2, _⟩ := hinv e he
    refine ⟨e, he, xi, h1, (hins xi).2 fun k => ?_⟩
    rcases h2 with rfl | rfl
    · constructor <;> linarith
    · have hk := hs e he k
      have a1 : 0 ≤ (p k - lo e k) / sz e k := div_nonneg (by linarith [(hc k).1]) hk.le
      have a2 : (p k - lo e k) / sz e k ≤ 1 := (div_le_one hk).2 (by linarith [(hc k).2])
      constructor <;> linarith)
  refine ⟨e, he, xi, (hins xi).1 h2, ?_, ?_⟩
  · obtain ⟨y, h4, _, h5⟩ := hinv e he
    rw [h1] at h4
    cases h4
    rw [← hres e he]
    exact h5
  · rw [(field_ok hf).1]
    unfold densitySingle
    rw [h3]
    congr 1
    exact box_value hT e xi

omit [LinearOrder K] [IsStrictOrderedRing K] in
theorem multilinear_affine {A : DensityArgs K d} (hT : BoxType A) {e : ℕ} {lo sz : Pt K d} (hb : BoxCell A e lo sz) (a : Pt K d) (b : K)
    (hr : A.elemRho e = (A.elemNodes e).map fun x => ∑ k, a k * x k + b) (xi : Pt K d) :
    multilinear A e xi = ∑ k, a k * (lo k + xi k * sz k) + b := by
  unfold multilinear
  rw [hr, hb]
  rcases hT with ⟨rfl, h⟩ | ⟨rfl, h⟩
  · rw [h]
    simp [basixVertices, Fin.prod_univ_two, Fin.sum_univ_two]
    ring
  · rw [h]
    simp [basixVertices, Fin.prod_univ_three, Fin.sum_univ_three]
    ring

/-- **C100** (affine densities on boxes). In the situation of `C100_boxes_interpolated_partial`, densities that are an affine
function of the position are reproduced, at a point closer than `1e-10`. -/
theorem C100_boxes_affine_partial (A : DensityArgs K d) (hT : BoxType A) (f : Sdf K d) (hf : A.field = .ok f) (p : Pt K d)
    (lo sz : ℕ → Pt K d) (hb : ∀ e ∈ A.candidates p, BoxCell A e (lo e) (sz e)) (hs : ∀ e ∈ A.candidates p, ∀ k, 0 < sz e k)
    (hd : ∀ e ∈ A.candidates p, ∑ k, (lo e k + sz e k / 2 - p k) ^ 2 ≤ 10 ^ 20)
    (hin : ∃ e ∈ A.candidates p, ∀ k, lo e k ≤ p k ∧ p k ≤ lo e k + sz e k) (a : Pt K d) (b : K)
    (hr : ∀ e ∈ A.candidates p, A.elemRho e = (A.elemNodes e).map fun x => ∑ k, a k * x k + b) :
    ∃ x : Pt K d, ∑ k, (x k - p k) ^ 2 < 1 / 10 ^ 20 ∧ f.call p = A.threshold - (∑ k, a k * x k + b) := by
  obtain ⟨e, he, xi, _, h2, h3⟩ := C100_boxes_interpolated_partial A hT f hf p lo sz hb hs hd hin
  exact ⟨fun k => lo e k + xi k * sz e k, h2, by rw [h3, multilinear_affine hT (hb e he) a b (hr e he)]⟩

/-- **C100** (structured grids, violated). For the HEX8 mesh of a structured grid with cubic cells, a point at distance `1e-6` or
more from the line through the centre of each candidate cell in direction `(1, -1, 1)` is not located in any cell: its density is
that of the nearest node (or zero outside the box with `close_boundary`), not the interpolated one. -/
theorem C100_grid_field_lost (g : Grid) (h : K) (hh : h ≠ 0) (org : K × K × K) (A : DensityArgs K 3) (ht : A.eleType = .HEX8)
    (hpts : A.points = (g.toMesh (h, h, h) org none).points.map fun x => ![x.1, x.2.1, x.2.2])
    (hcells : A.cells = (g.toMesh (h, h, h) org none).cells) (f : Sdf K 3) (hf : A.field = .ok f) (p : Pt K 3)
    (hc : ∀ e ∈ A.candidates p, e < g.numCells)
    (hp : ∀ e ∈ A.candidates p, ∀ q : Pt K 3,
      q = ![p 0 - (org.1 + ((g.cellIjk e).1 + 1 / 2) * h), p 1 - (org.2.1 + ((g.cellIjk e).2.1 + 1 / 2) * h),
        p 2 - (org.2.2 + ((g.cellIjk e).2.2 + 1 / 2) * h)] →
      1 / 10 ^ 12 ≤ q 0 ^ 2 + q 1 ^ 2 + q 2 ^ 2 - (q 0 - q 1 + q 2) ^ 2 / 3) :
    f.call p = A.threshold - A.farDensity p := by
  apply nowhere_far A f hf (by unfold DensityArgs.linearSimplex; rw [ht]; decide) p
  intro e he
  have hlt := hc e he
  obtain ⟨_, hmesh⟩ := C30_to_mesh g (h, h, h) org none
  obtain ⟨row, hrow, hlen, hnode⟩ := hmesh e e (by
    show (List.range (g.nx * g.ny * g.nz))[e]? = some e
    rw [List.getElem?_range]
    exact hlt)
  have hcoord := cellToNodes_coords g (h, h, h) org e hlt
  have hX : ∀ a < 8, A.points.getD ((A.cells.getD e []).getD a 0) (fun _ => 0) =
      (fun x : K × K × K => ![x.1, x.2.1, x.2.2]) (((g.cellToNodes e).map (g.nodeCoords (h, h, h) org)).getD a (0, 0, 0)) := by
    intro a ha
    have hn : a < (g.cellToNodes e).length := ha
    obtain ⟨m, h1, h2⟩ := hnode a _ (List.getElem?_eq_getElem hn)
    rw [hcells, hpts, List.getD_eq_getElem?_getD (l := (g.toMesh (h, h, h) org none).cells), hrow, Option.getD_some,
      List.getD_eq_getElem?_getD (l := row), h1, Option.getD_some, List.getD_eq_getElem?_getD, List.getElem?_map, h2,
      List.getD_eq_getElem?_getD, List.getElem?_map, List.getElem?_eq_getElem hn]
    rfl
  rw [hcoord] at hX
  have hnodes : A.elemNodes e = gridCube ![org.1 + (g.cellIjk e).1 * h, org.2.1 + (g.cellIjk e).2.1 * h, org.2.2 + (g.cellIjk e).2.2 * h] h := by
    unfold DensityArgs.elemNodes
    rw [ht]
    show List.map _ [0, 1, 3, 2, 4, 5, 7, 6] = _
    simp only [List.map_cons, List.map_nil]
    rw [hX 0 (by norm_num), hX 1 (by norm_num), hX 2 (by norm_num), hX 3 (by norm_num), hX 4 (by norm_num), hX 5 (by norm_num),
      hX 6 (by norm_num), hX 7 (by norm_num)]
    simp [hexOffsets, gridCube, add_mul, add_assoc]
  rw [ht, hnodes]
  refine C100_grid_cube_lost _ h hh p _ (fun k => ?_) (hp e he _ rfl)
  fin_cases k <;> simp <;> ring

end Newton

/-- The unit square as one cell, its corners listed from the second on, with density one at the corner `(1, 1)` only. -/
def exTurnedSquare : DensityArgs ℚ 2 where
  rho := [0, 0, 1, 0]
  points := [![0, 0], ![1, 0], ![1, 1], ![0, 1]]
  cells := [[1, 2, 3, 0]]
  eleType := .QUAD4
  threshold := 1 / 2
  closeBoundary := true
  candidates := fun _ => [0]
  nearest := fun _ => 2

theorem exTurnedSquare_nodes : exTurnedSquare.elemNodes 0 = turnedSquare ![1, 0] 0 1 := by decide +kernel

/-- The point next to the centre of the square, towards the corner `(1, 1)`. -/
def exOffCentre : Pt ℚ 2 := ![1 / 2 + 8 / 10 ^ 7, 1 / 2 + 8 / 10 ^ 7]

/-- Reference coordinates of `exOffCentre`. -/
def exOffRef : Pt ℚ 2 := ![1 / 2 + 8 / 10 ^ 7, 1 / 2 - 8 / 10 ^ 7]

theorem exOff_sol (k : Fin 2) : (![1, 0] : Pt ℚ 2) k + (!![0, -1; 1, 0] : Matrix (Fin 2) (Fin 2) ℚ).mulVec exOffRef k = exOffCentre k := by
  fin_cases k <;> simp [Matrix.mulVec, dotProduct, Fin.sum_univ_two, exOffRef, exOffCentre] <;> norm_num

theorem exOff_residual (xi : Pt ℚ 2) : residualSq .QUAD4 (turnedSquare ![1, 0] 0 1) exOffCentre xi =
    (xi 0 - exOffRef 0) ^ 2 + (xi 1 - exOffRef 1) ^ 2 := by
  unfold residualSq
  have hX := turnedSquare_affine (![1, 0] : Pt ℚ 2) 0 1
  rw [Fin.sum_univ_two, newtonResidual_affine hX _ exOffRef exOff_sol, newtonResidual_affine hX _ exOffRef exOff_sol]
  simp [Matrix.mulVec, dotProduct, Fin.sum_univ_two]
  ring

theorem exOff_step (xi : Pt ℚ 2) : newtonStep .QUAD4 (turnedSquare ![1, 0] 0 1) exOffCentre xi =
    some fun k => exOffRef k + 2 * (xi k - exOffRef k) := by
  have hX := turnedSquare_affine (![1, 0] : Pt ℚ 2) 0 1
  rw [step_affine hX (by rw [Matrix.det_fin_two_of]; norm_num) _ exOffRef exOff_sol xi fun k => exOffRef k - xi k]
  · congr 1
    funext k
    ring
  · funext k
    fin_cases k <;> simp [Matrix.mulVec, dotProduct, Fin.sum_univ_two]

theorem exOff_batch (n : ℕ) (xi : Pt ℚ 2) (h : 1 / 10 ^ 20 ≤ (xi 0 - exOffRef 0) ^ 2 + (xi 1 - exOffRef 1) ^ 2) :
    newtonBatch .QUAD4 [turnedSquare ![1, 0] 0 1] [exOffCentre] n [xi] = some [fun k => exOffRef k + 2 ^ n * (xi k - exOffRef k)] := by
  induction n generalizing xi with
  | zero =>
    unfold newtonBatch
    congr 2
    funext k
    ring
  | succ n ih =>
    unfold newtonBatch
    simp only [List.zip_cons_cons, List.zip_nil_right, List.all_cons, List.all_nil, Bool.and_true, exOff_residual, decide_eq_true_eq]
    rw [if_neg (not_lt.2 h)]
    simp only [List.mapM_cons, List.mapM_nil, exOff_step, Option.pure_def, Option.bind_eq_bind, Option.bind_some]
    rw [ih]
    · congr 2
      funext k
      ring
    · show 1 / 10 ^ 20 ≤ (exOffRef 0 + 2 * (xi 0 - exOffRef 0) - exOffRef 0) ^ 2 + (exOffRef 1 + 2 * (xi 1 - exOffRef 1) - exOffRef 1) ^ 2
      nlinarith [sq_nonneg (xi 0 - exOffRef 0), sq_nonneg (xi 1 - exOffRef 1)]

theorem exOff_single : exTurnedSquare.locator.inverse exOffCentre 0 = none := by
  rw [locator_newton _ (by decide), exTurnedSquare_nodes, show exTurnedSquare.eleType = .QUAD4 from rfl]
  exact C100_turned_square_lost _ 0 1 (by norm_num) (by norm_num) _ (by simp [exOffCentre]; norm_num)

/-- Where the batched iteration ends. -/
def exOffEnd : Pt ℚ 2 := ![1 / 2 + 8 / 10 ^ 7 - 2 ^ 20 * (8 / 10 ^ 7), 1 / 2 - 8 / 10 ^ 7 + 2 ^ 20 * (8 / 10 ^ 7)]

theorem exOff_inverseBatch : exTurnedSquare.locator.inverseBatch [exOffCentre] [0] = some [exOffEnd] := by
  rw [locator_newtonBatch _ (by decide), List.map_cons, List.map_nil, List.map_cons, List.map_nil, exTurnedSquare_nodes,
    show exTurnedSquare.eleType = .QUAD4 from rfl, refCentroid_quad, exOff_batch _ _ (by simp [exOffRef]; norm_num)]
  congr 2
  funext k
  fin_cases k <;> simp [exOffRef, exOffEnd] <;> norm_num

/-- **C100** (vectorised evaluation, violated). The value at a point and the value of the array that holds only that point differ:
the failure of Newton's method is noticed in the first and not in the second. Neither is `1/2` minus the interpolated density,
which is near `1/4`. -/
theorem C100_evaluate_differs :
    ∃ f, exTurnedSquare.field = .ok f ∧ f.call exOffCentre = -1 / 2 ∧ f.evaluate [exOffCentre] = [1 / 2] := by
  refine ⟨_, rfl, ?_, ?_⟩
  · show (1 / 2 : ℚ) - densitySingle exTurnedSquare.locator _ _ exOffCentre = _
    unfold densitySingle
    have h1 : locate exTurnedSquare.locator exOffCentre [0] none = .inr none := by
      unfold locate
      rw [exOff_single]
      rfl
    have h2 : exTurnedSquare.outsideBox exOffCentre = false := by decide +kernel
    rw [show exTurnedSquare.candidates exOffCentre = [0] from rfl, h1]
    show (1 / 2 : ℚ) - exTurnedSquare.farDensity exOffCentre = _
    unfold DensityArgs.farDensity
    rw [h2]
    decide +kernel
  · show (densityBatch exTurnedSquare.locator exTurnedSquare.candidates 1 exTurnedSquare.farDensity (fun _ => 0) [exOffCentre]).map _ = _
    unfold densityBatch
    have hst : batchStep exTurnedSquare.locator [exOffCentre] (fun _ => 0) [[0]] [(none, none)] 0 =
        [(none, some (refDistance .QUAD4 exOffEnd, exOffEnd, 0))] := by
      have hi : exTurnedSquare.locator.inside exOffEnd = false := by decide +kernel
      unfold batchStep
      simp [List.range_succ, exOff_inverseBatch, pointUpdate, hi, improves]
      rfl
    have hd : refDistance .QUAD4 exOffEnd < 1 / 2 := by decide +kernel
    simp only [List.map_cons, List.map_nil, List.range_one, List.foldl_cons, List.foldl_nil]
    rw [show exTurnedSquare.candidates exOffCentre = [0] from rfl, hst]
    simp only [List.zip_cons_cons, List.zip_nil_right, List.map_cons, List.map_nil, settle]
    rw [if_pos hd]
    decide +kernel


/-- A structured grid of one unit cell, with density one at one corner. -/
def exGridDensity : DensityArgs ℚ 3 where
  rho := [0, 0, 0, 0, 0, 0, 0, 1]
  points := ((Grid.mk 1 1 1).toMesh ((1 : ℚ), (1 : ℚ), (1 : ℚ)) (0, 0, 0) none).points.map fun x => ![x.1, x.2.1, x.2.2]
  cells := ((Grid.mk 1 1 1).toMesh ((1 : ℚ), (1 : ℚ), (1 : ℚ)) (0, 0, 0) none).cells
  eleType := .HEX8
  threshold := 1 / 2
  closeBoundary := false
  candidates := fun _ => [0]
  nearest := fun _ => 7

/-- `C100_grid_field_lost` on the unit cube: at `(3/4, 3/4, 3/4)` the interpolated density is `27/64`, below the threshold, and the
field says solid. -/
example : ∃ f, exGridDensity.field = .ok f ∧ f.call ![3 / 4, 3 / 4, 3 / 4] = -1 / 2 := by
  have hne : exGridDensity.points ≠ [] := by decide +kernel
  have hf : ∃ f, exGridDensity.field = .ok f := by
    unfold DensityArgs.field
    rw [if_neg hne, if_neg (by rintro ⟨h, _⟩; revert h; decide)]
    exact ⟨_, rfl⟩
  obtain ⟨f, hf⟩ := hf
  refine ⟨f, hf, ?_⟩
  rw [C100_grid_field_lost (Grid.mk 1 1 1) 1 one_ne_zero (0, 0, 0) exGridDensity rfl rfl rfl f hf]
  · decide +kernel
  · intro e he
    have : e = 0 := by simpa [exGridDensity] using he
    subst this
    decide
  · intro e he q hq
    have : e = 0 := by simpa [exGridDensity] using he
    subst this
    rw [hq]
    simp [Grid.cellIjk]
    norm_num

/-- The unit square as one cell in the standard order. -/
def exStandardSquare : DensityArgs ℚ 2 :=
  { exTurnedSquare with cells := [[0, 1, 2, 3]] }

/-- `C100_boxes_interpolated_partial` on the unit square. -/
example : ∃ f, exStandardSquare.field = .ok f ∧ ∃ e ∈ exStandardSquare.candidates ![1 / 4, 1 / 2], ∃ xi : Pt ℚ 2,
    (∀ k, -(1 / 10 ^ 6) ≤ xi k ∧ xi k ≤ 1 + 1 / 10 ^ 6) ∧ ∑ k, ((0 : ℚ) + xi k * 1 - (![1 / 4, 1 / 2] : Pt ℚ 2) k) ^ 2 < 1 / 10 ^ 20 ∧
    f.call ![1 / 4, 1 / 2] = 1 / 2 - multilinear exStandardSquare e xi := by
  refine ⟨_, rfl, C100_boxes_interpolated_partial exStandardSquare (Or.inl ⟨rfl, rfl⟩) _ rfl ![1 / 4, 1 / 2] (fun _ _ => 0) (fun _ _ => 1)
    ?_ ?_ ?_ ?_⟩
  · intro e he
    have : e = 0 := by simpa [exStandardSquare, exTurnedSquare] using he
    subst this
    unfold BoxCell
    decide +kernel
  · intros
    norm_num
  · intros
    simp [Fin.sum_univ_two]
    norm_num
  · refine ⟨0, by simp [exStandardSquare, exTurnedSquare], fun k => ?_⟩
    fin_cases k <;> simp <;> norm_num
end Verif.Props
