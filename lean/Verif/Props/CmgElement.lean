import Verif.Model.Cmg
import Mathlib.MeasureTheory.Integral.IntervalIntegral.Basic
import Mathlib.Analysis.SpecialFunctions.Integrals.Basic
import Mathlib.Analysis.Calculus.Deriv.Prod
import Mathlib.Analysis.Calculus.Deriv.Mul
import Mathlib.Analysis.Calculus.Deriv.Comp
import Mathlib.Tactic.FinCases
import Mathlib.Tactic.LinearCombination

/-!
# The element stiffness of the geometric multigrid solver (C108)
-/

namespace Verif.Props
open Verif.Model Verif.Model.Cmg Matrix

namespace Spec

/-- Nodal displacements of a cube: corner and component. -/
abbrev CubeDisp := Fin 8 × Fin 3 → ℝ

/-- Linear hat on the unit interval: at the end `0` or `1`. -/
def hat (d : ℕ) (t : ℝ) : ℝ := if d = 0 then 1 - t else t

/-- Trilinear interpolation on the cube of side `h` of values at its corners `h (dx, dy, dz)`. -/
noncomputable def trilinear (h : ℝ) (u : CubeDisp) (c : Fin 3) (x : Fin 3 → ℝ) : ℝ :=
  ∑ a : Fin 8, hat (corner a).1 (x 0 / h) * hat (corner a).2.1 (x 1 / h) * hat (corner a).2.2 (x 2 / h) * u (a, c)

/-- Partial derivative along axis `k`. -/
noncomputable def partialD (f : (Fin 3 → ℝ) → ℝ) (k : Fin 3) (x : Fin 3 → ℝ) : ℝ :=
  deriv (fun t => f (Function.update x k t)) (x k)

/-- Small strain of the interpolated displacement. -/
noncomputable def cubeStrain (h : ℝ) (u : CubeDisp) (x : Fin 3 → ℝ) (i j : Fin 3) : ℝ :=
  (partialD (trilinear h u i) j x + partialD (trilinear h u j) i x) / 2

/-- Work density `σ(u) : ε(v)` of an isotropic material with Young's modulus `E` and Poisson's ratio `nu`. -/
noncomputable def workDensity (nu E : ℝ) (e f : Fin 3 → Fin 3 → ℝ) : ℝ :=
  E / (1 + nu) * (∑ i, ∑ j, e i j * f i j) + E * nu / ((1 + nu) * (1 - 2 * nu)) * (∑ i, e i i) * ∑ i, f i i

/-- The virtual work on the cube of side `h`. -/
noncomputable def cubeWork (nu E h : ℝ) (u v : CubeDisp) : ℝ :=
  ∫ x in (0 : ℝ)..h, ∫ y in (0 : ℝ)..h, ∫ z in (0 : ℝ)..h,
    workDensity nu E (cubeStrain h u ![x, y, z]) (cubeStrain h v ![x, y, z])

/-- A rigid motion of the unit cube, to first order: a translation and a rotation. -/
def RigidMotion (u : CubeDisp) : Prop :=
  ∃ t w : Fin 3 → ℝ, ∀ a : Fin 8,
    let x : ℝ := (corner a).1
    let y : ℝ := (corner a).2.1
    let z : ℝ := (corner a).2.2
    u (a, 0) = t 0 + (w 1 * z - w 2 * y) ∧ u (a, 1) = t 1 + (w 2 * x - w 0 * z) ∧
      u (a, 2) = t 2 + (w 0 * y - w 1 * x)

end Spec

/-! ## Gradients of the shape functions -/

/-- Slope of the hat. -/
def hatSlope (d : ℕ) : ℝ := if d = 0 then -1 else 1

/-- Gradients of the trilinear shape functions on the unit cube. -/
def unitGrad (x y z : ℝ) : Matrix (Fin 3) (Fin 8) ℝ := fun k a =>
  match k with
  | 0 => hatSlope (corner a).1 * Spec.hat (corner a).2.1 y * Spec.hat (corner a).2.2 z
  | 1 => Spec.hat (corner a).1 x * hatSlope (corner a).2.1 * Spec.hat (corner a).2.2 z
  | 2 => Spec.hat (corner a).1 x * Spec.hat (corner a).2.1 y * hatSlope (corner a).2.2

theorem jac_eq (xi eta ze : ℝ) : shapeGrad xi eta ze * cornerMat = (1 / 2 : ℝ) • (1 : Matrix (Fin 3) (Fin 3) ℝ) := by
  ext i j
  rw [Matrix.mul_apply, Fin.sum_univ_eight]
  fin_cases i <;> fin_cases j <;> simp [shapeGrad, cornerMat, sign, corner] <;> ring

theorem jac_inv_mul (xi eta ze : ℝ) :
    (shapeGrad xi eta ze * cornerMat)⁻¹ * shapeGrad xi eta ze =
      unitGrad ((1 + xi) / 2) ((1 + eta) / 2) ((1 + ze) / 2) := by
  have h : (shapeGrad xi eta ze * cornerMat)⁻¹ = (2 : ℝ) • (1 : Matrix (Fin 3) (Fin 3) ℝ) := by
    apply Matrix.inv_eq_right_inv
    rw [jac_eq]
    simp
  rw [h]
  ext k a
  fin_cases k <;> fin_cases a <;> simp [shapeGrad, unitGrad, sign, corner, hatSlope, Spec.hat] <;> ring

theorem jac_det (xi eta ze : ℝ) : (shapeGrad xi eta ze * cornerMat).det = 1 / 8 := by
  rw [jac_eq, Matrix.det_smul]
  norm_num

/-- The six strains of the code at a point of the unit cube. -/
noncomputable def unitStrain (u : Spec.CubeDisp) (x y z : ℝ) : Fin 6 → ℝ := bMat (unitGrad x y z) *ᵥ u

/-- The integrand of the code at a point of the unit cube. -/
noncomputable def unitWork (nu E : ℝ) (u v : Spec.CubeDisp) (x y z : ℝ) : ℝ :=
  unitStrain u x y z ⬝ᵥ (dMat nu E *ᵥ unitStrain v x y z)

/-- The Gauss points in the unit interval. -/
noncomputable def gLo : ℝ := (1 + -(1 / Real.sqrt 3)) / 2
noncomputable def gHi : ℝ := (1 + 1 / Real.sqrt 3) / 2

theorem makeKE_form (nu E : ℝ) (u v : Spec.CubeDisp) :
    u ⬝ᵥ (makeKE nu E *ᵥ v) = 1 / 8 *
      (unitWork nu E u v gLo gLo gLo + unitWork nu E u v gLo gLo gHi + unitWork nu E u v gLo gHi gLo +
       unitWork nu E u v gLo gHi gHi + unitWork nu E u v gHi gLo gLo + unitWork nu E u v gHi gLo gHi +
       unitWork nu E u v gHi gHi gLo + unitWork nu E u v gHi gHi gHi) := by
  have key : ∀ B : Matrix (Fin 6) (Fin 8 × Fin 3) ℝ,
      u ⬝ᵥ ((((1 : ℝ) / 8) • (Bᵀ * dMat nu E * B)) *ᵥ v) = 1 / 8 * ((B *ᵥ u) ⬝ᵥ (dMat nu E *ᵥ (B *ᵥ v))) := by
    intro B
    rw [Matrix.smul_mulVec, dotProduct_smul, smul_eq_mul, ← Matrix.mulVec_mulVec, ← Matrix.mulVec_mulVec,
      Matrix.dotProduct_mulVec, Matrix.vecMul_transpose]
  unfold makeKE gaussPoints
  simp only [jac_det, jac_inv_mul, List.flatMap_cons, List.flatMap_nil, List.map_cons, List.map_nil, List.append_nil,
    List.cons_append, List.nil_append, List.sum_cons, List.sum_nil, add_zero, Matrix.add_mulVec, dotProduct_add, key]
  unfold unitWork unitStrain gLo gHi
  ring

/-! ## Exactness of the quadrature -/

/-- A polynomial of degree at most one. -/
def IsAff (f : ℝ → ℝ) : Prop := ∃ a b, ∀ t, f t = a + b * t

/-- A polynomial of degree at most two. -/
def IsQuad (f : ℝ → ℝ) : Prop := ∃ a b c, ∀ t, f t = a + b * t + c * t ^ 2

theorem isAff_const (c : ℝ) : IsAff fun _ => c := ⟨c, 0, fun t => by ring⟩

theorem IsAff.add {f g : ℝ → ℝ} (hf : IsAff f) (hg : IsAff g) : IsAff fun t => f t + g t := by
  obtain ⟨a, b, h⟩ := hf
  obtain ⟨a', b', h'⟩ := hg
  exact ⟨a + a', b + b', fun t => by simp only [h, h']; ring⟩

theorem IsAff.mul_const {f : ℝ → ℝ} (hf : IsAff f) (c : ℝ) : IsAff fun t => f t * c := by
  obtain ⟨a, b, h⟩ := hf
  exact ⟨a * c, b * c, fun t => by simp only [h]; ring⟩

theorem IsAff.const_mul {f : ℝ → ℝ} (hf : IsAff f) (c : ℝ) : IsAff fun t => c * f t := by
  obtain ⟨a, b, h⟩ := hf
  exact ⟨c * a, c * b, fun t => by simp only [h]; ring⟩

theorem isAff_sum {ι : Type*} (s : Finset ι) (f : ι → ℝ → ℝ) (h : ∀ i ∈ s, IsAff (f i)) : IsAff fun t => ∑ i ∈ s, f i t := by
  classical
  induction s using Finset.induction_on with
  | empty => simpa using isAff_const 0
  | insert i s hi ih =>
    have := (h i (Finset.mem_insert_self _ _)).add (ih fun j hj => h j (Finset.mem_insert_of_mem hj))
    simpa [Finset.sum_insert hi] using this

theorem IsAff.mul {f g : ℝ → ℝ} (hf : IsAff f) (hg : IsAff g) : IsQuad fun t => f t * g t := by
  obtain ⟨a, b, h⟩ := hf
  obtain ⟨a', b', h'⟩ := hg
  exact ⟨a * a', a * b' + b * a', b * b', fun t => by simp only [h, h']; ring⟩

theorem IsQuad.add {f g : ℝ → ℝ} (hf : IsQuad f) (hg : IsQuad g) : IsQuad fun t => f t + g t := by
  obtain ⟨a, b, c, h⟩ := hf
  obtain ⟨a', b', c', h'⟩ := hg
  exact ⟨a + a', b + b', c + c', fun t => by simp only [h, h']; ring⟩

theorem isQuad_sum {ι : Type*} (s : Finset ι) (f : ι → ℝ → ℝ) (h : ∀ i ∈ s, IsQuad (f i)) : IsQuad fun t => ∑ i ∈ s, f i t := by
  classical
  induction s using Finset.induction_on with
  | empty => exact ⟨0, 0, 0, fun t => by simp⟩
  | insert i s hi ih =>
    have := (h i (Finset.mem_insert_self _ _)).add (ih fun j hj => h j (Finset.mem_insert_of_mem hj))
    simpa [Finset.sum_insert hi] using this

theorem gauss_one {f : ℝ → ℝ} (hf : IsQuad f) : ∫ t in (0 : ℝ)..1, f t = (f gLo + f gHi) / 2 := by
  obtain ⟨a, b, c, h⟩ := hf
  have hs : (1 / Real.sqrt 3) ^ 2 = 1 / 3 := by
    rw [div_pow, Real.sq_sqrt (by norm_num)]; norm_num
  have e : f = fun t => a + b * t + c * t ^ 2 := funext h
  have hi : ∫ t in (0 : ℝ)..1, f t = a + b / 2 + c / 3 := by
    rw [e, intervalIntegral.integral_add, intervalIntegral.integral_add]
    · rw [intervalIntegral.integral_const_mul, intervalIntegral.integral_const_mul, integral_id, integral_pow]
      simp
      ring
    · exact (continuous_const.intervalIntegrable _ _)
    · exact ((continuous_const.mul continuous_id).intervalIntegrable _ _)
    · exact ((continuous_const.add (continuous_const.mul continuous_id)).intervalIntegrable _ _)
    · exact ((continuous_const.mul (continuous_id.pow 2)).intervalIntegrable _ _)
  rw [hi, h, h]
  unfold gLo gHi
  linear_combination (-c / 4) * hs

theorem hat_aff (d : ℕ) : IsAff (Spec.hat d) := by
  unfold Spec.hat
  by_cases h : d = 0
  · exact ⟨1, -1, fun t => by simp [h]; ring⟩
  · exact ⟨0, 1, fun t => by simp [h]⟩

theorem unitGrad_aff (k : Fin 3) (a : Fin 8) :
    (∀ y z, IsAff fun x => unitGrad x y z k a) ∧ (∀ x z, IsAff fun y => unitGrad x y z k a) ∧
      ∀ x y, IsAff fun z => unitGrad x y z k a := by
  refine ⟨fun y z => ?_, fun x z => ?_, fun x y => ?_⟩ <;> fin_cases k <;> simp only [unitGrad]
  · exact isAff_const _
  · exact ((hat_aff _).mul_const _).mul_const _
  · exact ((hat_aff _).mul_const _).mul_const _
  · exact ((hat_aff _).const_mul _).mul_const _
  · exact isAff_const _
  · exact ((hat_aff _).const_mul _).mul_const _
  · exact (hat_aff _).const_mul _
  · exact (hat_aff _).const_mul _
  · exact isAff_const _

theorem bMat_aff (r : Fin 6) (i : Fin 8 × Fin 3) :
    (∀ y z, IsAff fun x => bMat (unitGrad x y z) r i) ∧ (∀ x z, IsAff fun y => bMat (unitGrad x y z) r i) ∧
      ∀ x y, IsAff fun z => bMat (unitGrad x y z) r i := by
  obtain ⟨a, c⟩ := i
  fin_cases r <;> fin_cases c <;>
    first
    | exact unitGrad_aff 0 a
    | exact unitGrad_aff 1 a
    | exact unitGrad_aff 2 a
    | exact ⟨fun _ _ => isAff_const 0, fun _ _ => isAff_const 0, fun _ _ => isAff_const 0⟩

theorem unitStrain_aff (u : Spec.CubeDisp) (r : Fin 6) :
    (∀ y z, IsAff fun x => unitStrain u x y z r) ∧ (∀ x z, IsAff fun y => unitStrain u x y z r) ∧
      ∀ x y, IsAff fun z => unitStrain u x y z r := by
  unfold unitStrain Matrix.mulVec dotProduct
  exact ⟨fun y z => isAff_sum _ _ fun i _ => ((bMat_aff r i).1 y z).mul_const _,
    fun x z => isAff_sum _ _ fun i _ => ((bMat_aff r i).2.1 x z).mul_const _,
    fun x y => isAff_sum _ _ fun i _ => ((bMat_aff r i).2.2 x y).mul_const _⟩

theorem unitWork_quad (nu E : ℝ) (u v : Spec.CubeDisp) :
    (∀ y z, IsQuad fun x => unitWork nu E u v x y z) ∧ (∀ x z, IsQuad fun y => unitWork nu E u v x y z) ∧
      ∀ x y, IsQuad fun z => unitWork nu E u v x y z := by
  unfold unitWork dotProduct Matrix.mulVec dotProduct
  exact ⟨fun y z => isQuad_sum _ _ fun i _ => ((unitStrain_aff u i).1 y z).mul
      (isAff_sum _ _ fun j _ => ((unitStrain_aff v j).1 y z).const_mul _),
    fun x z => isQuad_sum _ _ fun i _ => ((unitStrain_aff u i).2.1 x z).mul
      (isAff_sum _ _ fun j _ => ((unitStrain_aff v j).2.1 x z).const_mul _),
    fun x y => isQuad_sum _ _ fun i _ => ((unitStrain_aff u i).2.2 x y).mul
      (isAff_sum _ _ fun j _ => ((unitStrain_aff v j).2.2 x y).const_mul _)⟩

theorem IsQuad.half {f g : ℝ → ℝ} (hf : IsQuad f) (hg : IsQuad g) : IsQuad fun t => (f t + g t) / 2 := by
  obtain ⟨a, b, c, h⟩ := hf
  obtain ⟨a', b', c', h'⟩ := hg
  exact ⟨(a + a') / 2, (b + b') / 2, (c + c') / 2, fun t => by simp only [h, h']; ring⟩

theorem makeKE_integral (nu E : ℝ) (u v : Spec.CubeDisp) :
    u ⬝ᵥ (makeKE nu E *ᵥ v) =
      ∫ x in (0 : ℝ)..1, ∫ y in (0 : ℝ)..1, ∫ z in (0 : ℝ)..1, unitWork nu E u v x y z := by
  obtain ⟨hx, hy, hz⟩ := unitWork_quad nu E u v
  have h1 : ∀ x y, ∫ z in (0 : ℝ)..1, unitWork nu E u v x y z = (unitWork nu E u v x y gLo + unitWork nu E u v x y gHi) / 2 :=
    fun x y => gauss_one (hz x y)
  simp only [h1]
  have h2 : ∀ x, ∫ y in (0 : ℝ)..1, (unitWork nu E u v x y gLo + unitWork nu E u v x y gHi) / 2 =
      ((unitWork nu E u v x gLo gLo + unitWork nu E u v x gLo gHi) / 2 +
        (unitWork nu E u v x gHi gLo + unitWork nu E u v x gHi gHi) / 2) / 2 :=
    fun x => gauss_one ((hy x gLo).half (hy x gHi))
  simp only [h2]
  rw [gauss_one (((hx gLo gLo).half (hx gLo gHi)).half ((hx gHi gLo).half (hx gHi gHi))), makeKE_form]
  ring

/-! ## The strain of the interpolated displacement -/

theorem hasDerivAt_hat (d : ℕ) (h t : ℝ) : HasDerivAt (fun s => Spec.hat d (s / h)) (hatSlope d / h) t := by
  unfold Spec.hat hatSlope
  by_cases hd : d = 0
  · simp only [hd, if_true]
    simpa [neg_div] using ((hasDerivAt_id t).div_const h).const_sub 1
  · simp only [hd, if_false]
    exact (hasDerivAt_id t).div_const h

theorem partialD_trilinear (h : ℝ) (u : Spec.CubeDisp) (c k : Fin 3) (x y z : ℝ) :
    Spec.partialD (Spec.trilinear h u c) k ![x, y, z] = (∑ a : Fin 8, unitGrad (x / h) (y / h) (z / h) k a * u (a, c)) / h := by
  unfold Spec.partialD
  apply HasDerivAt.deriv
  unfold Spec.trilinear
  rw [Finset.sum_div]
  apply HasDerivAt.fun_sum
  intro a _
  fin_cases k
  · have := (((hasDerivAt_hat (corner a).1 h x).mul_const (Spec.hat (corner a).2.1 (y / h))).mul_const
      (Spec.hat (corner a).2.2 (z / h))).mul_const (u (a, c))
    simp [unitGrad] at this ⊢
    exact this.congr_deriv (by ring)
  · have := (((hasDerivAt_hat (corner a).2.1 h y).const_mul (Spec.hat (corner a).1 (x / h))).mul_const
      (Spec.hat (corner a).2.2 (z / h))).mul_const (u (a, c))
    simp [unitGrad] at this ⊢
    exact this.congr_deriv (by ring)
  · have := ((hasDerivAt_hat (corner a).2.2 h z).const_mul (Spec.hat (corner a).1 (x / h) *
      Spec.hat (corner a).2.1 (y / h))).mul_const (u (a, c))
    simp [unitGrad] at this ⊢
    exact this.congr_deriv (by ring)

theorem unitStrain_rows (u : Spec.CubeDisp) (x y z : ℝ) :
    unitStrain u x y z = ![∑ a, unitGrad x y z 0 a * u (a, 0), ∑ a, unitGrad x y z 1 a * u (a, 1),
      ∑ a, unitGrad x y z 2 a * u (a, 2), ∑ a, unitGrad x y z 1 a * u (a, 0) + ∑ a, unitGrad x y z 0 a * u (a, 1),
      ∑ a, unitGrad x y z 2 a * u (a, 1) + ∑ a, unitGrad x y z 1 a * u (a, 2),
      ∑ a, unitGrad x y z 2 a * u (a, 0) + ∑ a, unitGrad x y z 0 a * u (a, 2)] := by
  ext r
  unfold unitStrain Matrix.mulVec dotProduct
  rw [Fintype.sum_prod_type]
  simp only [Fin.sum_univ_three]
  fin_cases r <;> simp [bMat, Finset.sum_add_distrib]

theorem workDensity_eq (nu E h : ℝ) (hh : h ≠ 0) (hn : 1 + nu ≠ 0) (u v : Spec.CubeDisp) (x y z : ℝ) :
    Spec.workDensity nu E (Spec.cubeStrain h u ![x, y, z]) (Spec.cubeStrain h v ![x, y, z]) =
      unitWork nu E u v (x / h) (y / h) (z / h) / h ^ 2 := by
  unfold Spec.workDensity Spec.cubeStrain unitWork
  simp only [partialD_trilinear, unitStrain_rows, dotProduct, Matrix.mulVec, Fin.sum_univ_six, Fin.sum_univ_three, dMat]
  simp
  generalize E * nu / ((1 + nu) * (1 - 2 * nu)) = lam
  field_simp
  ring

theorem cubeWork_eq (nu E h : ℝ) (hh : 0 < h) (hn : 1 + nu ≠ 0) (u v : Spec.CubeDisp) :
    Spec.cubeWork nu E h u v = h * (u ⬝ᵥ (makeKE nu E *ᵥ v)) := by
  unfold Spec.cubeWork
  simp only [workDensity_eq nu E h hh.ne' hn]
  rw [makeKE_integral]
  have h1 : ∀ f : ℝ → ℝ, ∫ t in (0 : ℝ)..h, f (t / h) = h * ∫ t in (0 : ℝ)..1, f t := by
    intro f
    rw [intervalIntegral.integral_comp_div _ hh.ne']
    simp [hh.ne']
  simp only [intervalIntegral.integral_div]
  simp only [fun a b => h1 (fun t => unitWork nu E u v a b t)]
  simp only [intervalIntegral.integral_const_mul]
  simp only [fun a => h1 (fun s => ∫ t in (0 : ℝ)..1, unitWork nu E u v a s t)]
  simp only [intervalIntegral.integral_const_mul]
  rw [h1 (fun r => ∫ s in (0 : ℝ)..1, ∫ t in (0 : ℝ)..1, unitWork nu E u v r s t)]
  field_simp

/-! ## Positivity and rigid motions -/

theorem dMat_form (nu E : ℝ) (h1 : 1 + nu ≠ 0) (h2 : 1 - 2 * nu ≠ 0) (e : Fin 6 → ℝ) :
    e ⬝ᵥ (dMat nu E *ᵥ e) = E / (3 * (1 - 2 * nu)) * (e 0 + e 1 + e 2) ^ 2 + E / (1 + nu) *
      (((e 0 - e 1) ^ 2 + (e 1 - e 2) ^ 2 + (e 0 - e 2) ^ 2) / 3 + (e 3 ^ 2 + e 4 ^ 2 + e 5 ^ 2) / 2) := by
  simp only [dotProduct, Matrix.mulVec, Fin.sum_univ_six, dMat]
  simp
  obtain ⟨k, hk⟩ : ∃ k, k = (1 - 2 * nu)⁻¹ := ⟨_, rfl⟩
  obtain ⟨m, hm⟩ : ∃ m, m = (1 + nu)⁻¹ := ⟨_, rfl⟩
  have hk1 : k * (1 - 2 * nu) = 1 := by rw [hk]; exact inv_mul_cancel₀ h2
  have hm1 : m * (1 + nu) = 1 := by rw [hm]; exact inv_mul_cancel₀ h1
  simp only [div_eq_mul_inv, mul_inv, ← hk, ← hm]
  have hkm : nu * m * k = (k - m) / 3 := by linear_combination (k * hm1 - m * hk1) / 3
  linear_combination (E * (e 0 + e 1 + e 2) ^ 2) * hkm

theorem dMat_symm (nu E : ℝ) : (dMat nu E)ᵀ = dMat nu E := by
  ext i j
  fin_cases i <;> fin_cases j <;> simp [dMat]

theorem dMat_nonneg {nu E : ℝ} (hE : 0 < E) (h1 : -1 < nu) (h2 : nu < 1 / 2) (e : Fin 6 → ℝ) :
    0 ≤ e ⬝ᵥ (dMat nu E *ᵥ e) := by
  have a1 : 0 < 1 + nu := by linarith
  have a2 : 0 < 1 - 2 * nu := by linarith
  rw [dMat_form nu E a1.ne' a2.ne']
  positivity

theorem dMat_zero {nu E : ℝ} (hE : 0 < E) (h1 : -1 < nu) (h2 : nu < 1 / 2) (e : Fin 6 → ℝ)
    (h : e ⬝ᵥ (dMat nu E *ᵥ e) = 0) : e = 0 := by
  have a1 : 0 < 1 + nu := by linarith
  have a2 : 0 < 1 - 2 * nu := by linarith
  rw [dMat_form nu E a1.ne' a2.ne'] at h
  have p1 : 0 < E / (3 * (1 - 2 * nu)) := by positivity
  have p2 : 0 < E / (1 + nu) := by positivity
  have q2 : 0 ≤ ((e 0 - e 1) ^ 2 + (e 1 - e 2) ^ 2 + (e 0 - e 2) ^ 2) / 3 + (e 3 ^ 2 + e 4 ^ 2 + e 5 ^ 2) / 2 := by
    positivity
  have s1 : (e 0 + e 1 + e 2) ^ 2 = 0 := by
    have := mul_nonneg p2.le q2
    have := sq_nonneg (e 0 + e 1 + e 2)
    have : E / (3 * (1 - 2 * nu)) * (e 0 + e 1 + e 2) ^ 2 = 0 :=
      le_antisymm (by linarith) (mul_nonneg p1.le this)
    rcases mul_eq_zero.mp this with h | h
    · exact absurd h p1.ne'
    · exact h
  have s2 : ((e 0 - e 1) ^ 2 + (e 1 - e 2) ^ 2 + (e 0 - e 2) ^ 2) / 3 + (e 3 ^ 2 + e 4 ^ 2 + e 5 ^ 2) / 2 = 0 := by
    rw [s1, mul_zero, zero_add] at h
    rcases mul_eq_zero.mp h with h | h
    · exact absurd h p2.ne'
    · exact h
  have t1 := pow_eq_zero_iff (two_ne_zero) |>.mp s1
  have n1 := sq_nonneg (e 0 - e 1)
  have n2 := sq_nonneg (e 1 - e 2)
  have n3 := sq_nonneg (e 0 - e 2)
  have n4 := sq_nonneg (e 3)
  have n5 := sq_nonneg (e 4)
  have n6 := sq_nonneg (e 5)
  have d1 : e 0 - e 1 = 0 := pow_eq_zero_iff (two_ne_zero) |>.mp (le_antisymm (by linarith) n1)
  have d2 : e 1 - e 2 = 0 := pow_eq_zero_iff (two_ne_zero) |>.mp (le_antisymm (by linarith) n2)
  have d4 : e 3 = 0 := pow_eq_zero_iff (two_ne_zero) |>.mp (le_antisymm (by linarith) n4)
  have d5 : e 4 = 0 := pow_eq_zero_iff (two_ne_zero) |>.mp (le_antisymm (by linarith) n5)
  have d6 : e 5 = 0 := pow_eq_zero_iff (two_ne_zero) |>.mp (le_antisymm (by linarith) n6)
  ext i
  fin_cases i
  · show e 0 = 0; linarith
  · show e 1 = 0; linarith
  · show e 2 = 0; linarith
  · exact d4
  · exact d5
  · exact d6

theorem gLo_ne_gHi : gLo ≠ gHi := by
  unfold gLo gHi
  have : 0 < 1 / Real.sqrt 3 := by positivity
  intro h
  linarith

theorem aff_zero {f : ℝ → ℝ} (hf : IsAff f) (h0 : f gLo = 0) (h1 : f gHi = 0) (t : ℝ) : f t = 0 := by
  obtain ⟨a, b, h⟩ := hf
  rw [h] at h0 h1
  have hb : b * (gHi - gLo) = 0 := by linarith
  have hb : b = 0 := by
    rcases mul_eq_zero.mp hb with h | h
    · exact h
    · exact absurd (by linarith) gLo_ne_gHi
  subst hb
  rw [h]
  linarith

theorem unitStrain_zero (u : Spec.CubeDisp) (r : Fin 6)
    (h : ∀ x ∈ [gLo, gHi], ∀ y ∈ [gLo, gHi], ∀ z ∈ [gLo, gHi], unitStrain u x y z r = 0) (x y z : ℝ) :
    unitStrain u x y z r = 0 := by
  obtain ⟨hx, hy, hz⟩ := unitStrain_aff u r
  have a1 : ∀ x ∈ [gLo, gHi], ∀ y ∈ [gLo, gHi], ∀ z, unitStrain u x y z r = 0 := fun x hx' y hy' z =>
    aff_zero (hz x y) (h x hx' y hy' gLo (by simp)) (h x hx' y hy' gHi (by simp)) z
  have a2 : ∀ x ∈ [gLo, gHi], ∀ y z, unitStrain u x y z r = 0 := fun x hx' y z =>
    aff_zero (hy x z) (a1 x hx' gLo (by simp) z) (a1 x hx' gHi (by simp) z) y
  exact aff_zero (hx y z) (a2 gLo (by simp) y z) (a2 gHi (by simp) y z) x

theorem rigid_of_strain_zero (u : Spec.CubeDisp) (h : ∀ x y z : ℝ, unitStrain u x y z = 0) : Spec.RigidMotion u := by
  have e : ∀ x y z : ℝ, ∀ r, unitStrain u x y z r = 0 := fun x y z r => by rw [h]; rfl
  have key : ∀ x ∈ [(0 : ℝ), 1], ∀ y ∈ [(0 : ℝ), 1], ∀ z ∈ [(0 : ℝ), 1], ∀ r, unitStrain u x y z r = 0 :=
    fun x _ y _ z _ r => e x y z r
  simp only [unitStrain_rows] at e
  have k000 := e 0 0 0
  have k001 := e 0 0 1
  have k010 := e 0 1 0
  have k011 := e 0 1 1
  have k100 := e 1 0 0
  have k101 := e 1 0 1
  have k110 := e 1 1 0
  have k111 := e 1 1 1
  simp [Fin.forall_fin_succ, Fin.sum_univ_eight, unitGrad, corner, hatSlope, Spec.hat] at k000 k001 k010 k011 k100 k101 k110 k111
  obtain ⟨a0, a1, a2, a3, a4, a5⟩ := k000
  obtain ⟨b0, b1, b2, b3, b4, b5⟩ := k001
  obtain ⟨c0, c1, c2, c3, c4, c5⟩ := k010
  obtain ⟨d0, d1, d2, d3, d4, d5⟩ := k011
  obtain ⟨f0, f1, f2, f3, f4, f5⟩ := k100
  obtain ⟨g0, g1, g2, g3, g4, g5⟩ := k101
  obtain ⟨i0, i1, i2, i3, i4, i5⟩ := k110
  obtain ⟨j0, j1, j2, j3, j4, j5⟩ := k111
  refine ⟨![u (0, 0), u (0, 1), u (0, 2)],
    ![u (2, 2) - u (0, 2), u (1, 0) - u (0, 0), u (4, 1) - u (0, 1)], fun a => ?_⟩
  fin_cases a <;> simp [corner] <;> (repeat' apply And.intro) <;> linarith

theorem strain_zero_of_rigid (u : Spec.CubeDisp) (h : Spec.RigidMotion u) (x y z : ℝ) : unitStrain u x y z = 0 := by
  obtain ⟨t, w, h⟩ := h
  have h0 := h 0
  have h1 := h 1
  have h2 := h 2
  have h3 := h 3
  have h4 := h 4
  have h5 := h 5
  have h6 := h 6
  have h7 := h 7
  simp [corner] at h0 h1 h2 h3 h4 h5 h6 h7
  rw [unitStrain_rows]
  ext r
  fin_cases r <;> simp [Fin.sum_univ_eight, unitGrad, corner, hatSlope, Spec.hat, h0, h1, h2, h3, h4, h5, h6, h7] <;> ring

/-! ## The property -/

/-- C108: `vᵀ KE u` is the exact virtual work of the trilinear displacement on the unit cube: the two-point quadrature
loses nothing. -/
theorem C108_exact_work (nu E : ℝ) (hn : 1 + nu ≠ 0) (u v : Spec.CubeDisp) :
    u ⬝ᵥ (makeKE nu E *ᵥ v) = Spec.cubeWork nu E 1 u v := by
  rw [cubeWork_eq nu E 1 one_pos hn, one_mul]

example : (1 : ℝ) + 3 / 10 ≠ 0 := by norm_num

/-- C108: the element matrix is symmetric, positive semidefinite, and its null space is the rigid motions and nothing
else: no spurious zero-energy mode. -/
theorem C108_rigid_kernel (nu E : ℝ) (hE : 0 < E) (h1 : -1 < nu) (h2 : nu < 1 / 2) :
    (makeKE nu E).IsSymm ∧ (∀ u : Spec.CubeDisp, 0 ≤ u ⬝ᵥ (makeKE nu E *ᵥ u)) ∧
      (∀ u : Spec.CubeDisp, u ⬝ᵥ (makeKE nu E *ᵥ u) = 0 ↔ Spec.RigidMotion u) ∧
      ∀ u : Spec.CubeDisp, makeKE nu E *ᵥ u = 0 ↔ Spec.RigidMotion u := by
  have hnn : ∀ (u : Spec.CubeDisp) x y z, 0 ≤ unitWork nu E u u x y z := fun u x y z => dMat_nonneg hE h1 h2 _
  have hz : ∀ u : Spec.CubeDisp, u ⬝ᵥ (makeKE nu E *ᵥ u) = 0 → Spec.RigidMotion u := by
    intro u h
    rw [makeKE_form] at h
    have n1 := hnn u gLo gLo gLo
    have n2 := hnn u gLo gLo gHi
    have n3 := hnn u gLo gHi gLo
    have n4 := hnn u gLo gHi gHi
    have n5 := hnn u gHi gLo gLo
    have n6 := hnn u gHi gLo gHi
    have n7 := hnn u gHi gHi gLo
    have n8 := hnn u gHi gHi gHi
    have z1 := dMat_zero hE h1 h2 _ (show unitWork nu E u u gLo gLo gLo = 0 by linarith)
    have z2 := dMat_zero hE h1 h2 _ (show unitWork nu E u u gLo gLo gHi = 0 by linarith)
    have z3 := dMat_zero hE h1 h2 _ (show unitWork nu E u u gLo gHi gLo = 0 by linarith)
    have z4 := dMat_zero hE h1 h2 _ (show unitWork nu E u u gLo gHi gHi = 0 by linarith)
    have z5 := dMat_zero hE h1 h2 _ (show unitWork nu E u u gHi gLo gLo = 0 by linarith)
    have z6 := dMat_zero hE h1 h2 _ (show unitWork nu E u u gHi gLo gHi = 0 by linarith)
    have z7 := dMat_zero hE h1 h2 _ (show unitWork nu E u u gHi gHi gLo = 0 by linarith)
    have z8 := dMat_zero hE h1 h2 _ (show unitWork nu E u u gHi gHi gHi = 0 by linarith)
    apply rigid_of_strain_zero
    intro x y z
    ext r
    apply unitStrain_zero
    intro x hx y hy z hz
    simp only [List.mem_cons, List.not_mem_nil, or_false] at hx hy hz
    rcases hx with rfl | rfl <;> rcases hy with rfl | rfl <;> rcases hz with rfl | rfl <;>
      simp only [z1, z2, z3, z4, z5, z6, z7, z8, Pi.zero_apply]
  have hsym : (makeKE nu E).IsSymm := by
    unfold Matrix.IsSymm makeKE
    rw [Matrix.transpose_list_sum, List.map_map]
    congr 1
    apply List.map_congr_left
    intro p _
    simp only [Function.comp_apply, Matrix.transpose_smul, Matrix.transpose_mul, Matrix.transpose_transpose, dMat_symm,
      Matrix.mul_assoc]
  have hker : ∀ u : Spec.CubeDisp, Spec.RigidMotion u → ∀ v : Spec.CubeDisp, v ⬝ᵥ (makeKE nu E *ᵥ u) = 0 := by
    intro u h v
    rw [makeKE_form]
    simp [unitWork, strain_zero_of_rigid u h]
  refine ⟨hsym, fun u => ?_, fun u => ⟨hz u, fun h => hker u h u⟩, fun u => ⟨fun h => hz u (by rw [h]; simp), fun h => ?_⟩⟩
  · rw [makeKE_form]
    have n1 := hnn u gLo gLo gLo
    have n2 := hnn u gLo gLo gHi
    have n3 := hnn u gLo gHi gLo
    have n4 := hnn u gLo gHi gHi
    have n5 := hnn u gHi gLo gLo
    have n6 := hnn u gHi gLo gHi
    have n7 := hnn u gHi gHi gLo
    have n8 := hnn u gHi gHi gHi
    linarith
  · ext i
    have := hker u h (Pi.single i 1)
    simpa using this

/-- The hypotheses hold for the defaults, and there are both rigid and deforming displacements. -/
example : (0 : ℝ) < 1 ∧ (-1 : ℝ) < 3 / 10 ∧ (3 / 10 : ℝ) < 1 / 2 ∧ Spec.RigidMotion (fun _ => 1) ∧
    ¬ Spec.RigidMotion (fun i => if i.2 = 0 then ((corner i.1).1 : ℝ) else 0) := by
  refine ⟨by norm_num, by norm_num, by norm_num, ⟨fun _ => 1, 0, fun a => by simp⟩, ?_⟩
  rintro ⟨t, w, h⟩
  have h0 := (h 0).1
  have h4 := (h 4).1
  simp [corner] at h0 h4
  linarith

/-- C108, what does not hold: the module says its operator is identical to the one assembled on the same grid, but the
element matrix is that of a unit cube whatever the spacing of the grid. On cells of side `h` the exact work is `h` times the
one computed, so for `h ≠ 1` every deforming displacement gets a wrong energy. -/
theorem C108_spacing_ignored (nu E h : ℝ) (hE : 0 < E) (h1 : -1 < nu) (h2 : nu < 1 / 2) (hh : 0 < h) :
    (∀ u v : Spec.CubeDisp, Spec.cubeWork nu E h u v = h * (u ⬝ᵥ (makeKE nu E *ᵥ v))) ∧
      (h ≠ 1 → ∀ u : Spec.CubeDisp, ¬ Spec.RigidMotion u → Spec.cubeWork nu E h u u ≠ u ⬝ᵥ (makeKE nu E *ᵥ u)) := by
  have e := fun u v => cubeWork_eq nu E h hh (by linarith : 1 + nu ≠ 0) u v
  refine ⟨e, fun hne u hu heq => ?_⟩
  rw [e] at heq
  have hu0 : u ⬝ᵥ (makeKE nu E *ᵥ u) ≠ 0 := fun h0 => hu (((C108_rigid_kernel nu E hE h1 h2).2.2.1 u).mp h0)
  exact hne (mul_right_cancel₀ hu0 (by rw [heq, one_mul]))

end Verif.Props
