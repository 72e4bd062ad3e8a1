import Verif.Props.Orientation
import Mathlib.Analysis.Matrix.PosDef
import Mathlib.Tactic.LinearCombination

/-!
# C90: closures of the fourth-order orientation tensor
-/

namespace Verif.Props

open Verif.Model

/-- A finite distribution of fibre directions: weights and directions. -/
abbrev Odf (d : ℕ) := List (ℝ × (Fin d → ℝ))

/-- Weights are shares of one, directions are unit vectors. -/
structure IsOdf {d : ℕ} (D : Odf d) : Prop where
  nonneg : ∀ f ∈ D, 0 ≤ f.1
  total : (D.map fun f => f.1).sum = 1
  unit : ∀ f ∈ D, ∑ i, f.2 i ^ 2 = 1

/-- The second-order orientation tensor `⟨p_i p_j⟩`. -/
def odf2 {d : ℕ} (D : Odf d) : Arr2 ℝ d := fun i j => (D.map fun f => f.1 * (f.2 i * f.2 j)).sum

/-- The fourth-order orientation tensor `⟨p_i p_j p_k p_l⟩`. -/
def odf4 {d : ℕ} (D : Odf d) : Arr4 ℝ d := fun i j k l => (D.map fun f => f.1 * (f.2 i * f.2 j * f.2 k * f.2 l)).sum

/-- The value does not depend on the order of the indices. -/
def FullySymmetric {d : ℕ} (a : Arr4 ℝ d) : Prop :=
  ∀ i j k l, a i j k l = a j i k l ∧ a i j k l = a i k j l ∧ a i j k l = a i j l k

/-- The contraction identity `a_ijkk = a_ij`. -/
def Contracts {d : ℕ} (a4 : Arr4 ℝ d) (a2 : Arr2 ℝ d) : Prop := ∀ i j, ∑ k, a4 i j k k = a2 i j

/-- All fibres along one axis. -/
def Aligned {d : ℕ} (D : Odf d) : Prop := ∃ p : Fin d → ℝ, ∑ i, p i ^ 2 = 1 ∧ ∀ f ∈ D, f.2 = p ∨ f.2 = fun i => -p i

/-- The fourth moment is that of no preferred direction: a multiple of `δδ + δδ + δδ`. -/
def Random {d : ℕ} (D : Odf d) : Prop := ∃ c : ℝ, odf4 D = fun i j k l => c * isoPart ℝ d i j k l

theorem odf2_cons {d : ℕ} (f : ℝ × (Fin d → ℝ)) (D : Odf d) (i j : Fin d) :
    odf2 (f :: D) i j = f.1 * (f.2 i * f.2 j) + odf2 D i j := by
  simp [odf2]

theorem odf4_cons {d : ℕ} (f : ℝ × (Fin d → ℝ)) (D : Odf d) (i j k l : Fin d) :
    odf4 (f :: D) i j k l = f.1 * (f.2 i * f.2 j * f.2 k * f.2 l) + odf4 D i j k l := by
  simp [odf4]

theorem odf2_symm {d : ℕ} (D : Odf d) (i j : Fin d) : odf2 D i j = odf2 D j i := by
  simp only [odf2]
  congr 1
  exact List.map_congr_left fun f _ => by ring

theorem odf4_contracts {d : ℕ} {D : Odf d} (h : ∀ f ∈ D, ∑ i, f.2 i ^ 2 = 1) : Contracts (odf4 D) (odf2 D) := by
  intro i j
  induction D with
  | nil => simp [odf4, odf2]
  | cons f D ih =>
    simp only [odf4_cons, odf2_cons, Finset.sum_add_distrib]
    rw [ih fun g hg => h g (List.mem_cons_of_mem _ hg)]
    congr 1
    have : ∀ k, f.1 * (f.2 i * f.2 j * f.2 k * f.2 k) = f.1 * (f.2 i * f.2 j) * f.2 k ^ 2 := fun k => by ring
    simp only [this]
    rw [← Finset.mul_sum, h f List.mem_cons_self, mul_one]

theorem odf2_trace {d : ℕ} {D : Odf d} (h : IsOdf D) : ∑ i, odf2 D i i = 1 := by
  have : ∀ D : Odf d, (∀ f ∈ D, ∑ i, f.2 i ^ 2 = 1) → ∑ i, odf2 D i i = (D.map fun f => f.1).sum := by
    intro D
    induction D with
    | nil => intro _; simp [odf2]
    | cons f D ih =>
      intro hD
      simp only [odf2_cons, Finset.sum_add_distrib]
      rw [ih fun g hg => hD g (List.mem_cons_of_mem _ hg), List.map_cons, List.sum_cons]
      congr 1
      have : ∀ k, f.1 * (f.2 k * f.2 k) = f.1 * f.2 k ^ 2 := fun k => by ring
      simp only [this]
      rw [← Finset.mul_sum, hD f List.mem_cons_self, mul_one]
  rw [this D h.unit, h.total]

theorem odf2_psd {d : ℕ} {D : Odf d} (h : ∀ f ∈ D, 0 ≤ f.1) (v : Fin d → ℝ) : 0 ≤ quadForm (odf2 D) v := by
  induction D with
  | nil => simp [quadForm, odf2]
  | cons f D ih =>
    have h1 : quadForm (odf2 (f :: D)) v = f.1 * (∑ i, f.2 i * v i) ^ 2 + quadForm (odf2 D) v := by
      simp only [quadForm, odf2_cons, add_mul, Finset.sum_add_distrib]
      congr 1
      rw [sq, Finset.sum_mul_sum, Finset.mul_sum]
      refine Finset.sum_congr rfl fun i _ => ?_
      rw [Finset.mul_sum]
      exact Finset.sum_congr rfl fun j _ => by ring
    rw [h1]
    exact add_nonneg (mul_nonneg (h f List.mem_cons_self) (sq_nonneg _))
      (ih fun g hg => h g (List.mem_cons_of_mem _ hg))

/-! ### Quadratic and linear closures -/

theorem odf2_aligned {d : ℕ} {D : Odf d} (h : (D.map fun f => f.1).sum = 1) {p : Fin d → ℝ}
    (hp : ∀ f ∈ D, f.2 = p ∨ f.2 = fun i => -p i) :
    odf2 D = (fun i j => p i * p j) ∧ odf4 D = fun i j k l => p i * p j * p k * p l := by
  constructor
  · funext i j
    have : (D.map fun f => f.1 * (f.2 i * f.2 j)) = D.map fun f => f.1 * (p i * p j) := by
      refine List.map_congr_left fun f hf => ?_
      rcases hp f hf with e | e <;> rw [e] <;> ring
    show (D.map fun f => f.1 * (f.2 i * f.2 j)).sum = _
    rw [this, List.sum_map_mul_right, h, one_mul]
  · funext i j k l
    have : (D.map fun f => f.1 * (f.2 i * f.2 j * f.2 k * f.2 l)) = D.map fun f => f.1 * (p i * p j * p k * p l) := by
      refine List.map_congr_left fun f hf => ?_
      rcases hp f hf with e | e <;> rw [e] <;> ring
    show (D.map fun f => f.1 * (f.2 i * f.2 j * f.2 k * f.2 l)).sum = _
    rw [this, List.sum_map_mul_right, h, one_mul]

/-- **C90.** The quadratic closure is exact when all fibres lie along one axis. -/
theorem C90_quadratic_exact {d : ℕ} {D : Odf d} (h : IsOdf D) (ha : Aligned D) :
    quadraticClosure (odf2 D) = odf4 D := by
  obtain ⟨p, -, hp⟩ := ha
  obtain ⟨h2, h4⟩ := odf2_aligned h.total hp
  rw [h2, h4]
  funext i j k l
  simp only [quadraticClosure]
  ring

/-- Two opposite directions of different weights. -/
noncomputable def exAligned : Odf 2 := [(1 / 4, ![3 / 5, 4 / 5]), (3 / 4, ![-(3 / 5), -(4 / 5)])]

theorem exAligned_ok : IsOdf exAligned ∧ Aligned exAligned := by
  refine ⟨⟨?_, ?_, ?_⟩, ![3 / 5, 4 / 5], ?_, ?_⟩
  · intro f hf
    simp only [exAligned, List.mem_cons, List.not_mem_nil, or_false] at hf
    rcases hf with rfl | rfl <;> norm_num
  · simp [exAligned]; norm_num
  · intro f hf
    simp only [exAligned, List.mem_cons, List.not_mem_nil, or_false] at hf
    rcases hf with rfl | rfl <;> simp [Fin.sum_univ_two] <;> norm_num
  · simp [Fin.sum_univ_two]; norm_num
  · intro f hf
    simp only [exAligned, List.mem_cons, List.not_mem_nil, or_false] at hf
    rcases hf with rfl | rfl
    · left; rfl
    · right; funext i; fin_cases i <;> simp

theorem iso_contraction (d : ℕ) (i j : Fin d) : ∑ k, isoPart ℝ d i j k k = (d + 2) * eye ℝ d i j := by
  have h1 : ∀ k : Fin d, eye ℝ d k k = 1 := fun k => by simp [eye]
  have h2 : ∑ k, eye ℝ d i k * eye ℝ d j k = eye ℝ d i j := by
    simp only [eye, mul_ite, mul_one, mul_zero, Finset.sum_ite_eq, Finset.mem_univ, if_true]
  simp only [isoPart, h1, Finset.sum_add_distrib, h2, mul_one, Finset.sum_const, Finset.card_univ, Fintype.card_fin,
    nsmul_eq_mul]
  ring

theorem random_moments {d : ℕ} (hd : 0 < d) {D : Odf d} (h : IsOdf D) (hr : Random D) :
    (odf4 D = fun i j k l => 1 / (d * (d + 2)) * isoPart ℝ d i j k l) ∧ odf2 D = fun i j => 1 / d * eye ℝ d i j := by
  obtain ⟨c, hc⟩ := hr
  have hd' : (d : ℝ) ≠ 0 := by exact_mod_cast hd.ne'
  have hd2 : (d : ℝ) + 2 ≠ 0 := by positivity
  have h2 : ∀ i j, odf2 D i j = c * (d + 2) * eye ℝ d i j := by
    intro i j
    rw [← odf4_contracts h.unit i j, hc]
    show ∑ k, c * isoPart ℝ d i j k k = _
    rw [← Finset.mul_sum, iso_contraction, mul_assoc]
  have ht := odf2_trace h
  simp only [h2, eye, if_true, mul_one, Finset.sum_const, Finset.card_univ, Fintype.card_fin, nsmul_eq_mul] at ht
  have hcv : c = 1 / (d * (d + 2)) := by
    field_simp
    linarith
  constructor
  · rw [hc, hcv]
  · funext i j
    rw [h2, hcv]
    field_simp

theorem linear_eq {d : ℕ} (hd : d = 2 ∨ d = 3) (a2 : Arr2 ℝ d) :
    ∃ c1 c2 : ℝ, linearClosure a2 = .ok (fun i j k l => c1 * isoPart ℝ d i j k l + c2 * anisoPart a2 i j k l) ∧
      (c1 * (d + 2) + c2 = 0) ∧ c2 * (d + 4) = 1 := by
  rcases hd with rfl | rfl
  · exact ⟨-1 / 24, 1 / 6, rfl, by norm_num, by norm_num⟩
  · exact ⟨-1 / 35, 1 / 7, rfl, by norm_num, by norm_num⟩

theorem aniso_contraction {d : ℕ} (a2 : Arr2 ℝ d) (hs : ∀ i j, a2 i j = a2 j i) (i j : Fin d) :
    ∑ k, anisoPart a2 i j k k = (d + 4) * a2 i j + (∑ k, a2 k k) * eye ℝ d i j := by
  have h1 : ∀ k : Fin d, eye ℝ d k k = 1 := fun k => by simp [eye]
  have h2 : ∑ k, a2 i k * eye ℝ d j k = a2 i j := by
    simp only [eye, mul_ite, mul_one, mul_zero, Finset.sum_ite_eq, Finset.mem_univ, if_true]
  have h3 : ∑ k, a2 j k * eye ℝ d i k = a2 i j := by
    simp only [eye, mul_ite, mul_one, mul_zero, Finset.sum_ite_eq, Finset.mem_univ, if_true]
    exact hs j i
  simp only [anisoPart, h1, Finset.sum_add_distrib, h2, h3, mul_one, Finset.sum_const, Finset.card_univ, Fintype.card_fin,
    nsmul_eq_mul, ← Finset.sum_mul]
  ring

/-- **C90.** The linear closure, in two and three dimensions, is exact for a random distribution; it contracts to the second-order
tensor when that has trace one; and it is fully symmetric. -/
theorem C90_linear {d : ℕ} (hd : d = 2 ∨ d = 3) :
    (∀ D : Odf d, IsOdf D → Random D → linearClosure (odf2 D) = .ok (odf4 D)) ∧
    ∀ a2 : Arr2 ℝ d, (∀ i j, a2 i j = a2 j i) → ∃ a4, linearClosure a2 = .ok a4 ∧ FullySymmetric a4 ∧
      (∑ i, a2 i i = 1 → Contracts a4 a2) := by
  constructor
  · intro D h hr
    have hd0 : 0 < d := by omega
    obtain ⟨h4, h2⟩ := random_moments hd0 h hr
    have hd' : (d : ℝ) ≠ 0 := by exact_mod_cast hd0.ne'
    have hd2 : (d : ℝ) + 2 ≠ 0 := by positivity
    obtain ⟨c1, c2, he, e1, e2⟩ := linear_eq hd (odf2 D)
    rw [he, h4, h2]
    refine congrArg Except.ok ?_
    funext i j k l
    have : anisoPart (fun i j => 1 / (d : ℝ) * eye ℝ d i j) i j k l = 2 / d * isoPart ℝ d i j k l := by
      simp only [anisoPart, isoPart]
      have hs : ∀ i j : Fin d, eye ℝ d i j = eye ℝ d j i := fun i j => by simp [eye, eq_comm]
      rw [hs k l, hs i j]
      ring
    rw [this]
    have hc : c1 + c2 * (2 / d) = 1 / (d * (d + 2)) := by
      field_simp
      nlinarith
    rw [← hc]
    ring
  · intro a2 hs
    obtain ⟨c1, c2, he, e1, e2⟩ := linear_eq hd a2
    refine ⟨_, he, ?_, ?_⟩
    · have hse : ∀ i j : Fin d, eye ℝ d i j = eye ℝ d j i := fun i j => by simp [eye, eq_comm]
      intro i j k l
      refine ⟨?_, ?_, ?_⟩
      · simp only [isoPart, anisoPart]
        rw [hse j i, hs j i]
        ring
      · simp only [isoPart, anisoPart]
        rw [hse k j, hs k j]
        ring
      · simp only [isoPart, anisoPart]
        rw [hse l k, hs l k]
        ring
    · intro ht i j
      show ∑ k, (c1 * isoPart ℝ d i j k k + c2 * anisoPart a2 i j k k) = a2 i j
      rw [Finset.sum_add_distrib, ← Finset.mul_sum, ← Finset.mul_sum, iso_contraction, aniso_contraction a2 hs, ht]
      linear_combination (eye ℝ d i j) * e1 + a2 i j * e2

/-- The four directions at multiples of 45 degrees. -/
noncomputable def exRandom : Odf 2 :=
  let r := Real.sqrt 2 / 2
  [(1 / 4, ![1, 0]), (1 / 4, ![r, r]), (1 / 4, ![0, 1]), (1 / 4, ![-r, r])]

theorem exRandom_ok : IsOdf exRandom ∧ Random exRandom := by
  have h2 : Real.sqrt 2 * Real.sqrt 2 = 2 := Real.mul_self_sqrt (by norm_num)
  refine ⟨⟨?_, ?_, ?_⟩, 1 / 8, ?_⟩
  · intro f hf
    simp only [exRandom, List.mem_cons, List.not_mem_nil, or_false] at hf
    rcases hf with rfl | rfl | rfl | rfl <;> norm_num
  · simp [exRandom]; norm_num
  · intro f hf
    simp only [exRandom, List.mem_cons, List.not_mem_nil, or_false] at hf
    rcases hf with rfl | rfl | rfl | rfl <;> simp [Fin.sum_univ_two] <;> nlinarith
  · funext i j k l
    fin_cases i <;> fin_cases j <;> fin_cases k <;> fin_cases l <;> simp [odf4, exRandom, isoPart, eye] <;> nlinarith

/-! ### The hybrid closure -/

theorem det_nonneg_of_psd {d : ℕ} {a : Arr2 ℝ d} (h : PsdTensor a) : 0 ≤ Matrix.det (Matrix.of a) := by
  refine Matrix.PosSemidef.det_nonneg (Matrix.PosSemidef.of_dotProduct_mulVec_nonneg ?_ ?_)
  · ext i j
    simpa using h.1 j i
  · intro x
    refine le_of_le_of_eq (h.2 x) ?_
    simp only [quadForm, dotProduct, Matrix.mulVec, Matrix.of_apply, Pi.star_apply, star_trivial, Finset.mul_sum]
    exact Finset.sum_congr rfl fun i _ => Finset.sum_congr rfl fun j _ => by ring

theorem odf2_admissible {d : ℕ} {D : Odf d} (h : IsOdf D) : PsdTensor (odf2 D) :=
  ⟨odf2_symm D, odf2_psd h.nonneg⟩

private theorem diag_nonneg {a : Arr2 ℝ 3} (h : PsdTensor a) (i : Fin 3) : 0 ≤ a i i := by
  have := h.2 (fun j => if j = i then 1 else 0)
  simpa [quadForm] using this

private theorem minor_nonneg {a : Arr2 ℝ 3} (h : PsdTensor a) {i j : Fin 3} (hij : i ≠ j) : a i j ^ 2 ≤ a i i * a j j := by
  have hq : ∀ x y : ℝ, 0 ≤ a i i * x * x + 2 * a i j * x * y + a j j * y * y := by
    intro x y
    have h1 := h.2 (fun k => if k = i then x else if k = j then y else 0)
    have h2 : quadForm a (fun k => if k = i then x else if k = j then y else 0)
        = a i i * x * x + 2 * a i j * x * y + a j j * y * y := by
      have hs := h.1
      simp only [quadForm, Fin.sum_univ_three]
      fin_cases i <;> fin_cases j <;> first | exact absurd rfl hij | skip
      all_goals
        simp
        try rw [hs 1 0]
        try rw [hs 2 0]
        try rw [hs 2 1]
        ring
    rw [h2] at h1
    exact h1
  rcases eq_or_lt_of_le (diag_nonneg h i) with h0 | h0
  · have e : a i j = 0 := by
      by_contra hne
      have h1 := hq (-(a j j + 1) / (2 * a i j)) 1
      have h2 : 2 * a i j * (-(a j j + 1) / (2 * a i j)) * 1 = -(a j j + 1) := by field_simp
      rw [← h0, h2] at h1
      linarith
    rw [← h0, e]
    simp
  · have h1 := hq (-(a i j)) (a i i)
    nlinarith

private theorem det_le_product {a : Arr2 ℝ 3} (h : PsdTensor a) : Matrix.det (Matrix.of a) ≤ a 0 0 * a 1 1 * a 2 2 := by
  have h0 := diag_nonneg h 0
  have h1 := diag_nonneg h 1
  have h2 := diag_nonneg h 2
  have m01 := minor_nonneg h (i := 0) (j := 1) (by decide)
  have m02 := minor_nonneg h (i := 0) (j := 2) (by decide)
  rw [Matrix.det_fin_three]
  simp only [Matrix.of_apply]
  rw [h.1 1 0, h.1 2 0, h.1 2 1]
  rcases eq_or_lt_of_le h0 with hz | hz
  · have e1 : a 0 1 = 0 := by
      rw [← hz] at m01
      have : a 0 1 ^ 2 = 0 := le_antisymm (by linarith) (sq_nonneg _)
      exact pow_eq_zero_iff (two_ne_zero) |>.mp this
    have e2 : a 0 2 = 0 := by
      rw [← hz] at m02
      have : a 0 2 ^ 2 = 0 := le_antisymm (by linarith) (sq_nonneg _)
      exact pow_eq_zero_iff (two_ne_zero) |>.mp this
    rw [← hz, e1, e2]
    simp
  · have hm : a 0 0 * (a 0 0 * a 1 1 * a 2 2 - (a 0 0 * a 1 1 * a 2 2 - a 0 0 * a 1 2 * a 1 2 - a 0 1 * a 0 1 * a 2 2
        + a 0 1 * a 1 2 * a 0 2 + a 0 2 * a 0 1 * a 1 2 - a 0 2 * a 1 1 * a 0 2)) ≥ 0 := by
      have p1 : 0 ≤ (a 0 0 * a 2 2 - a 0 2 ^ 2) * a 0 1 ^ 2 := mul_nonneg (by linarith) (sq_nonneg _)
      have p2 : 0 ≤ a 0 0 * a 1 1 * a 0 2 ^ 2 := mul_nonneg (mul_nonneg h0 h1) (sq_nonneg _)
      have p3 := sq_nonneg (a 0 0 * a 1 2 - a 0 1 * a 0 2)
      nlinarith
    have := nonneg_of_mul_nonneg_right hm hz
    linarith

private theorem am_gm_three {x y z : ℝ} (hx : 0 ≤ x) (hy : 0 ≤ y) (hz : 0 ≤ z) (h : x + y + z = 1) :
    27 * (x * y * z) ≤ 1 := by
  have : z = 1 - x - y := by linarith
  nlinarith [mul_nonneg hx (sq_nonneg (y - z)), mul_nonneg hy (sq_nonneg (x - z)), mul_nonneg hz (sq_nonneg (x - y)),
    mul_nonneg hx hy, mul_nonneg hy hz, mul_nonneg hx hz, sq_nonneg (x - y), sq_nonneg (y - z), sq_nonneg (x - z)]

/-- The blending factor of the hybrid closure: `1 - d^d det a`. -/
theorem hybrid_eq {d : ℕ} (hd : d = 2 ∨ d = 3) (a2 : Arr2 ℝ d) {lin : Arr4 ℝ d} (hl : linearClosure a2 = .ok lin) :
    hybridClosure a2 = .ok (fun i j k l => (d ^ d * Matrix.det (Matrix.of a2)) * lin i j k l
      + (1 - d ^ d * Matrix.det (Matrix.of a2)) * (a2 i j * a2 k l)) := by
  rcases hd with rfl | rfl
  · simp only [hybridClosure, hybridScale, if_true, hl, hybridFactor, quadraticClosure]
    show Except.ok _ = Except.ok _
    refine congrArg Except.ok ?_
    funext i j k l
    norm_num
  · simp only [hybridClosure, hybridScale, hl, hybridFactor, quadraticClosure]
    rw [if_neg (by decide), if_pos trivial]
    show Except.ok _ = Except.ok _
    refine congrArg Except.ok ?_
    funext i j k l
    norm_num

/-- **C90.** For every distribution of fibres, in two and three dimensions, the hybrid closure is a weighted mean of the linear
and the quadratic closure: the share of the linear one lies between 0 and 1. -/
theorem C90_hybrid_blend {d : ℕ} (hd : d = 2 ∨ d = 3) {D : Odf d} (h : IsOdf D) :
    ∃ (t : ℝ) (lin : Arr4 ℝ d), 0 ≤ t ∧ t ≤ 1 ∧ linearClosure (odf2 D) = .ok lin ∧
      hybridClosure (odf2 D)
        = .ok (fun i j k l => t * lin i j k l + (1 - t) * quadraticClosure (odf2 D) i j k l) := by
  obtain ⟨lin, hl, -, -⟩ := (C90_linear hd).2 (odf2 D) (odf2_symm D)
  have hp := odf2_admissible h
  have ht := odf2_trace h
  have h0 := det_nonneg_of_psd hp
  refine ⟨_, lin, ?_, ?_, hl, hybrid_eq hd _ hl⟩
  · exact mul_nonneg (by positivity) h0
  · rcases hd with rfl | rfl
    · rw [Matrix.det_fin_two]
      simp only [Matrix.of_apply]
      rw [Fin.sum_univ_two] at ht
      rw [odf2_symm D 1 0]
      push_cast
      nlinarith [sq_nonneg (odf2 D 0 1), sq_nonneg (odf2 D 0 0 - odf2 D 1 1)]
    · have h1 := det_le_product hp
      rw [Fin.sum_univ_three] at ht
      have h2 := am_gm_three (diag_nonneg hp 0) (diag_nonneg hp 1) (diag_nonneg hp 2) ht
      push_cast
      nlinarith

/-- **C90.** The hybrid closure is exact when all fibres lie along one axis and when the distribution is random, and it contracts
to the second-order tensor of every distribution. -/
theorem C90_hybrid_exact {d : ℕ} (hd : d = 2 ∨ d = 3) {D : Odf d} (h : IsOdf D) :
    (Aligned D → hybridClosure (odf2 D) = .ok (odf4 D)) ∧ (Random D → hybridClosure (odf2 D) = .ok (odf4 D)) ∧
    ∃ a4, hybridClosure (odf2 D) = .ok a4 ∧ Contracts a4 (odf2 D) := by
  obtain ⟨lin, hl, -, hcon⟩ := (C90_linear hd).2 (odf2 D) (odf2_symm D)
  have ht := odf2_trace h
  rw [hybrid_eq hd _ hl]
  refine ⟨?_, ?_, _, rfl, ?_⟩
  · intro ha
    have hq := C90_quadratic_exact h ha
    obtain ⟨p, -, hp⟩ := ha
    have hdet : Matrix.det (Matrix.of (odf2 D)) = 0 := by
      rw [(odf2_aligned h.total hp).1]
      rcases hd with rfl | rfl
      · rw [Matrix.det_fin_two]; simp only [Matrix.of_apply]; ring
      · rw [Matrix.det_fin_three]; simp only [Matrix.of_apply]; ring
    refine congrArg Except.ok ?_
    funext i j k l
    rw [hdet, ← hq]
    simp [quadraticClosure]
  · intro hr
    have hlin := (C90_linear hd).1 D h hr
    rw [hl] at hlin
    injection hlin with hlin
    have hdet : (d : ℝ) ^ d * Matrix.det (Matrix.of (odf2 D)) = 1 := by
      rw [(random_moments (by omega) h hr).2]
      rcases hd with rfl | rfl
      · rw [Matrix.det_fin_two]; simp only [Matrix.of_apply, eye]; norm_num
      · rw [Matrix.det_fin_three]; simp only [Matrix.of_apply, eye]; norm_num [Fin.ext_iff]
    refine congrArg Except.ok ?_
    funext i j k l
    rw [hdet, hlin]
    ring
  · intro i j
    have h1 := hcon ht i j
    show ∑ k, ((d : ℝ) ^ d * Matrix.det (Matrix.of (odf2 D)) * lin i j k k
      + (1 - (d : ℝ) ^ d * Matrix.det (Matrix.of (odf2 D))) * (odf2 D i j * odf2 D k k)) = odf2 D i j
    rw [Finset.sum_add_distrib, ← Finset.mul_sum, h1, ← Finset.mul_sum, ← Finset.mul_sum, ht]
    ring

/-- **C90.** Tensors that are neither two- nor three-dimensional are refused. -/
theorem C90_other_dimensions_refused {d : ℕ} (h2 : d ≠ 2) (h3 : d ≠ 3) (a2 : Arr2 ℝ d) :
    linearClosure a2 = .error .valueError ∧ hybridClosure a2 = .error .valueError := by
  constructor
  · simp [linearClosure, linearCoeffs, h2, h3]
  · simp [hybridClosure, hybridScale, h2, h3]

example : (4 : ℕ) ≠ 2 ∧ (4 : ℕ) ≠ 3 := by decide

/-! ### The closure-free tensor -/

/-- The five components of `build_a4_2d` as an array. -/
theorem buildA4_entries (a2 : Arr2 ℝ 2) (y1 y2 eps : ℝ) :
    ∃ c2 s2 c4 s4 : ℝ, c2 = (a2 0 0 - a2 1 1) / (a2 0 0 + a2 1 1 + eps) ∧ s2 = 2 * a2 0 1 / (a2 0 0 + a2 1 1 + eps) ∧
      c4 = c2 * c2 - s2 * s2 + y1 * (1 - (c2 * c2 + s2 * s2)) ∧ s4 = 2 * c2 * s2 + y2 * (1 - (c2 * c2 + s2 * s2)) ∧
      ∀ i j k l, buildA4 a2 y1 y2 eps i j k l = (a2 0 0 + a2 1 1) *
        (![(3 + 4 * c2 + c4) / 8, (2 * s2 + s4) / 8, (1 - c4) / 8, (2 * s2 - s4) / 8, (3 - 4 * c2 + c4) / 8] : Fin 5 → ℝ)
          ⟨i + j + k + l, by omega⟩ := by
  refine ⟨_, _, _, _, rfl, rfl, rfl, rfl, ?_⟩
  intro i j k l
  fin_cases i <;> fin_cases j <;> fin_cases k <;> fin_cases l <;> rfl

/-- Sums of trigonometric moments of a distribution of directions in the plane: angles are doubled. -/
def trigMoment (D : Odf 2) (g : ℝ → ℝ → ℝ) : ℝ := (D.map fun f => f.1 * g (f.2 0 ^ 2 - f.2 1 ^ 2) (2 * f.2 0 * f.2 1)).sum

theorem odf4_trig {D : Odf 2} (h : IsOdf D) (i j k l : Fin 2) :
    odf4 D i j k l = (![(3 + 4 * trigMoment D (fun u _ => u) + trigMoment D (fun u v => u * u - v * v)) / 8,
      (2 * trigMoment D (fun _ v => v) + trigMoment D (fun u v => 2 * u * v)) / 8,
      (1 - trigMoment D (fun u v => u * u - v * v)) / 8,
      (2 * trigMoment D (fun _ v => v) - trigMoment D (fun u v => 2 * u * v)) / 8,
      (3 - 4 * trigMoment D (fun u _ => u) + trigMoment D (fun u v => u * u - v * v)) / 8] : Fin 5 → ℝ)
          ⟨i + j + k + l, by omega⟩ := by
  have key : ∀ D : Odf 2, (∀ f ∈ D, ∑ i, f.2 i ^ 2 = 1) →
      odf4 D i j k l = (![(3 * (D.map fun f => f.1).sum + 4 * trigMoment D (fun u _ => u)
        + trigMoment D (fun u v => u * u - v * v)) / 8,
      (2 * trigMoment D (fun _ v => v) + trigMoment D (fun u v => 2 * u * v)) / 8,
      ((D.map fun f => f.1).sum - trigMoment D (fun u v => u * u - v * v)) / 8,
      (2 * trigMoment D (fun _ v => v) - trigMoment D (fun u v => 2 * u * v)) / 8,
      (3 * (D.map fun f => f.1).sum - 4 * trigMoment D (fun u _ => u)
        + trigMoment D (fun u v => u * u - v * v)) / 8] : Fin 5 → ℝ) ⟨i + j + k + l, by omega⟩ := by
    intro D
    induction D with
    | nil =>
      intro _
      fin_cases i <;> fin_cases j <;> fin_cases k <;> fin_cases l <;> simp [odf4, trigMoment]
    | cons f D ih =>
      intro hD
      have hu := hD f List.mem_cons_self
      rw [Fin.sum_univ_two] at hu
      have ih' := ih fun g hg => hD g (List.mem_cons_of_mem _ hg)
      rw [odf4_cons, ih']
      have hx : f.2 0 ^ 2 = 1 - f.2 1 ^ 2 := by linarith
      have hx4 : f.2 0 ^ 4 = (1 - f.2 1 ^ 2) ^ 2 := by rw [← hx]; ring
      have hx3 : f.2 0 ^ 3 = f.2 0 * (1 - f.2 1 ^ 2) := by rw [← hx]; ring
      fin_cases i <;> fin_cases j <;> fin_cases k <;> fin_cases l <;>
        simp only [trigMoment, List.map_cons, List.sum_cons] <;>
        simp <;> ring_nf <;> simp only [hx, hx3, hx4] <;> ring
  rw [key D h.unit, h.total]
  norm_num

theorem odf2_trig {D : Odf 2} (h : IsOdf D) : odf2 D 0 0 = (1 + trigMoment D (fun u _ => u)) / 2 ∧
    odf2 D 1 1 = (1 - trigMoment D (fun u _ => u)) / 2 ∧ odf2 D 0 1 = trigMoment D (fun _ v => v) / 2 ∧
    odf2 D 1 0 = trigMoment D (fun _ v => v) / 2 := by
  have h1 : odf2 D 0 0 - odf2 D 1 1 = trigMoment D (fun u _ => u) := by
    have : ∀ D : Odf 2, odf2 D 0 0 - odf2 D 1 1 = trigMoment D (fun u _ => u) := by
      intro D
      induction D with
      | nil => simp [odf2, trigMoment]
      | cons f D ih =>
        rw [odf2_cons, odf2_cons]
        simp only [trigMoment, List.map_cons, List.sum_cons] at ih ⊢
        rw [← ih]; ring
    exact this D
  have h2 : 2 * odf2 D 0 1 = trigMoment D (fun _ v => v) := by
    have : ∀ D : Odf 2, 2 * odf2 D 0 1 = trigMoment D (fun _ v => v) := by
      intro D
      induction D with
      | nil => simp [odf2, trigMoment]
      | cons f D ih =>
        rw [odf2_cons]
        simp only [trigMoment, List.map_cons, List.sum_cons] at ih ⊢
        rw [← ih]; ring
    exact this D
  have h3 := odf2_trace h
  rw [Fin.sum_univ_two] at h3
  refine ⟨by linarith, by linarith, by linarith, ?_⟩
  rw [odf2_symm]; linarith

/-- Half of an angle. -/
theorem half_angle {u v : ℝ} (h : u ^ 2 + v ^ 2 = 1) :
    ∃ p q : ℝ, p ^ 2 + q ^ 2 = 1 ∧ p ^ 2 - q ^ 2 = u ∧ 2 * p * q = v := by
  rcases eq_or_ne u (-1) with rfl | hu
  · have hv : v = 0 := by
      have : v ^ 2 = 0 := by linarith
      exact pow_eq_zero_iff two_ne_zero |>.mp this
    exact ⟨0, 1, by norm_num, by norm_num, by rw [hv]; ring⟩
  · have hlt : -1 < u := lt_of_le_of_ne (by nlinarith [sq_nonneg v]) (Ne.symm hu)
    have hs : Real.sqrt ((1 + u) / 2) ^ 2 = (1 + u) / 2 := Real.sq_sqrt (by linarith)
    have hp : 0 < Real.sqrt ((1 + u) / 2) := Real.sqrt_pos.mpr (by linarith)
    have hq : (v / (2 * Real.sqrt ((1 + u) / 2))) ^ 2 = (1 - u) / 2 := by
      rw [div_pow, mul_pow, hs]
      field_simp
      have h1u : 1 + u ≠ 0 := by linarith
      rw [div_eq_iff h1u]
      nlinarith
    refine ⟨Real.sqrt ((1 + u) / 2), v / (2 * Real.sqrt ((1 + u) / 2)), ?_, ?_, ?_⟩
    · rw [hs, hq]; ring
    · rw [hs, hq]; ring
    · field_simp

/-- Two directions with prescribed second moments and a fourth moment on the boundary of what is possible. -/
theorem two_atoms {c s y1 y2 : ℝ} (h : c ^ 2 + s ^ 2 ≤ 1) (hy : y1 ^ 2 + y2 ^ 2 = 1) :
    ∃ D : Odf 2, IsOdf D ∧ trigMoment D (fun u _ => u) = c ∧ trigMoment D (fun _ v => v) = s ∧
      trigMoment D (fun u v => u * u - v * v) = c * c - s * s + y1 * (1 - (c * c + s * s)) ∧
      trigMoment D (fun u v => 2 * u * v) = 2 * c * s + y2 * (1 - (c * c + s * s)) := by
  obtain ⟨cp, sp, hn, hc, hs⟩ := half_angle (u := -y1) (v := -y2) (by linarith [hy])
  obtain ⟨x, hx⟩ : ∃ x, x = c * cp + s * sp := ⟨_, rfl⟩
  obtain ⟨y, hyd⟩ : ∃ y, y = s * cp - c * sp := ⟨_, rfl⟩
  have hcx : c = cp * x - sp * y := by rw [hx, hyd]; linear_combination (-c) * hn
  have hsx : s = sp * x + cp * y := by rw [hx, hyd]; linear_combination (-s) * hn
  have hxy : x ^ 2 + y ^ 2 ≤ 1 := by
    have : x ^ 2 + y ^ 2 = (c ^ 2 + s ^ 2) * (cp ^ 2 + sp ^ 2) := by rw [hx, hyd]; ring
    rw [this, hn, mul_one]; exact h
  obtain ⟨r, hr⟩ : ∃ r, r = Real.sqrt (1 - x ^ 2) := ⟨_, rfl⟩
  have hr2 : r ^ 2 = 1 - x ^ 2 := by rw [hr]; exact Real.sq_sqrt (by nlinarith [sq_nonneg y])
  have hr0 : 0 ≤ r := by rw [hr]; exact Real.sqrt_nonneg _
  have hyr : |y| ≤ r := abs_le_of_sq_le_sq (by rw [hr2]; linarith) hr0
  obtain ⟨m, hm, hm1, hm2⟩ : ∃ m : ℝ, m * r = y ∧ -1 ≤ m ∧ m ≤ 1 := by
    rcases eq_or_lt_of_le hr0 with h0 | h0
    · refine ⟨0, ?_, by norm_num, by norm_num⟩
      rw [← h0] at hyr
      have := abs_nonpos_iff.mp hyr
      rw [this]; ring
    · have hb := abs_le.mp hyr
      refine ⟨y / r, by field_simp, ?_, ?_⟩
      · rw [le_div_iff₀ h0]; linarith
      · rw [div_le_iff₀ h0]; linarith
  obtain ⟨p1, q1, hu1, hd1, hm1'⟩ := half_angle (u := cp * x - sp * r) (v := sp * x + cp * r)
    (by linear_combination (x ^ 2 + r ^ 2) * hn + hr2)
  obtain ⟨p2, q2, hu2, hd2, hm2'⟩ := half_angle (u := cp * x + sp * r) (v := sp * x - cp * r)
    (by linear_combination (x ^ 2 + r ^ 2) * hn + hr2)
  refine ⟨[((1 + m) / 2, ![p1, q1]), ((1 - m) / 2, ![p2, q2])], ⟨?_, ?_, ?_⟩, ?_, ?_, ?_, ?_⟩
  · intro f hf
    simp only [List.mem_cons, List.not_mem_nil, or_false] at hf
    rcases hf with rfl | rfl
    · show 0 ≤ (1 + m) / 2; linarith
    · show 0 ≤ (1 - m) / 2; linarith
  · simp; ring
  · intro f hf
    simp only [List.mem_cons, List.not_mem_nil, or_false] at hf
    rcases hf with rfl | rfl
    · simpa [Fin.sum_univ_two] using hu1
    · simpa [Fin.sum_univ_two] using hu2
  all_goals
    simp only [trigMoment, List.map_cons, List.map_nil, List.sum_cons, List.sum_nil, Matrix.cons_val_zero,
      Matrix.cons_val_one, add_zero, hd1, hd2, hm1', hm2']
  · rw [hcx, ← hm]; ring
  · rw [hsx, ← hm]; ring
  · have e1 : y1 = sp ^ 2 - cp ^ 2 := by linarith
    have e2 : c * c + s * s = x ^ 2 + y ^ 2 := by rw [hcx, hsx]; linear_combination (x ^ 2 + y ^ 2) * hn
    rw [e2, e1, hcx, hsx, ← hm]
    linear_combination (-(cp ^ 2 - sp ^ 2)) * hr2 + 0 * hn
  · have e1 : y2 = -2 * cp * sp := by linarith
    have e2 : c * c + s * s = x ^ 2 + y ^ 2 := by rw [hcx, hsx]; linear_combination (x ^ 2 + y ^ 2) * hn
    rw [e2, e1, hcx, hsx, ← hm]
    linear_combination (-(2 * cp * sp)) * hr2

/-- The mixture of two distributions. -/
def mixOdf (t : ℝ) (D E : Odf 2) : Odf 2 := (D.map fun f => (t * f.1, f.2)) ++ E.map fun f => ((1 - t) * f.1, f.2)

theorem mix_ok {t : ℝ} (h0 : 0 ≤ t) (h1 : t ≤ 1) {D E : Odf 2} (hD : IsOdf D) (hE : IsOdf E) : IsOdf (mixOdf t D E) := by
  refine ⟨?_, ?_, ?_⟩
  · intro f hf
    simp only [mixOdf, List.mem_append, List.mem_map] at hf
    rcases hf with ⟨g, hg, rfl⟩ | ⟨g, hg, rfl⟩
    · exact mul_nonneg h0 (hD.nonneg g hg)
    · exact mul_nonneg (by linarith) (hE.nonneg g hg)
  · simp only [mixOdf, List.map_append, List.map_map, List.sum_append, Function.comp_def]
    rw [List.sum_map_mul_left, List.sum_map_mul_left, hD.total, hE.total]
    ring
  · intro f hf
    simp only [mixOdf, List.mem_append, List.mem_map] at hf
    rcases hf with ⟨g, hg, rfl⟩ | ⟨g, hg, rfl⟩
    · exact hD.unit g hg
    · exact hE.unit g hg

theorem mix_moment (t : ℝ) (D E : Odf 2) (g : ℝ → ℝ → ℝ) :
    trigMoment (mixOdf t D E) g = t * trigMoment D g + (1 - t) * trigMoment E g := by
  simp only [trigMoment, mixOdf, List.map_append, List.map_map, List.sum_append, Function.comp_def, mul_assoc]
  rw [List.sum_map_mul_left, List.sum_map_mul_left]

/-- Every pair of moments allowed by the parameters in the unit disk is that of a distribution. -/
theorem disk_atoms {c s y1 y2 : ℝ} (h : c ^ 2 + s ^ 2 ≤ 1) (hy : y1 ^ 2 + y2 ^ 2 ≤ 1) :
    ∃ D : Odf 2, IsOdf D ∧ trigMoment D (fun u _ => u) = c ∧ trigMoment D (fun _ v => v) = s ∧
      trigMoment D (fun u v => u * u - v * v) = c * c - s * s + y1 * (1 - (c * c + s * s)) ∧
      trigMoment D (fun u v => 2 * u * v) = 2 * c * s + y2 * (1 - (c * c + s * s)) := by
  obtain ⟨t, u1, u2, ht0, ht1, hu, e1, e2⟩ : ∃ t u1 u2 : ℝ, 0 ≤ t ∧ t ≤ 1 ∧ u1 ^ 2 + u2 ^ 2 = 1 ∧ y1 = t * u1 ∧ y2 = t * u2 := by
    obtain ⟨t, ht⟩ : ∃ t, t = Real.sqrt (y1 ^ 2 + y2 ^ 2) := ⟨_, rfl⟩
    have ht2 : t ^ 2 = y1 ^ 2 + y2 ^ 2 := by rw [ht]; exact Real.sq_sqrt (by positivity)
    have ht0 : 0 ≤ t := by rw [ht]; exact Real.sqrt_nonneg _
    have ht1 : t ≤ 1 := by nlinarith
    rcases eq_or_lt_of_le ht0 with h0 | h0
    · refine ⟨0, 1, 0, le_refl _, by norm_num, by norm_num, ?_, ?_⟩
      · rw [← h0] at ht2
        have : y1 ^ 2 = 0 := by nlinarith [sq_nonneg y1, sq_nonneg y2]
        rw [pow_eq_zero_iff two_ne_zero |>.mp this]; ring
      · rw [← h0] at ht2
        have : y2 ^ 2 = 0 := by nlinarith [sq_nonneg y1, sq_nonneg y2]
        rw [pow_eq_zero_iff two_ne_zero |>.mp this]; ring
    · refine ⟨t, y1 / t, y2 / t, ht0, ht1, ?_, by field_simp, by field_simp⟩
      rw [div_pow, div_pow, ← add_div, ← ht2, div_self (by positivity)]
  obtain ⟨D, hD, d1, d2, d3, d4⟩ := two_atoms h hu
  obtain ⟨E, hE, f1, f2, f3, f4⟩ := two_atoms (y1 := -u1) (y2 := -u2) h (by linarith [hu])
  refine ⟨mixOdf ((1 + t) / 2) D E, mix_ok (by linarith) (by linarith) hD hE, ?_, ?_, ?_, ?_⟩
  · rw [mix_moment, d1, f1]; ring
  · rw [mix_moment, d2, f2]; ring
  · rw [mix_moment, d3, f3, e1]; ring
  · rw [mix_moment, d4, f4, e2]; ring

/-- **C90.** With parameters in the unit disk the closure-free tensor is admissible: it is the trace times the fourth moment of some
distribution of fibres, whose second moment times the trace is the given tensor up to `eps`. -/
theorem C90_build_admissible (a2 : Arr2 ℝ 2) (y1 y2 eps : ℝ) (h0 : 0 ≤ a2 0 0) (h1 : 0 ≤ a2 1 1) (hs : a2 1 0 = a2 0 1)
    (hd : a2 0 1 ^ 2 ≤ a2 0 0 * a2 1 1) (he : 0 ≤ eps) (ht : 0 < a2 0 0 + a2 1 1 + eps) (hy : y1 ^ 2 + y2 ^ 2 ≤ 1) :
    ∃ D : Odf 2, IsOdf D ∧ (∀ i j k l, buildA4 a2 y1 y2 eps i j k l = (a2 0 0 + a2 1 1) * odf4 D i j k l) ∧
      ∀ i j, |(a2 0 0 + a2 1 1) * odf2 D i j - a2 i j| ≤ eps / 2 := by
  obtain ⟨c2, s2, c4, s4, hc2, hs2, hc4, hs4, hbuild⟩ := buildA4_entries a2 y1 y2 eps
  have htau : 0 ≤ a2 0 0 + a2 1 1 := add_nonneg h0 h1
  have hcs : c2 ^ 2 + s2 ^ 2 ≤ 1 := by
    rw [hc2, hs2, div_pow, div_pow, ← add_div, div_le_one (by positivity)]
    nlinarith
  obtain ⟨D, hD, d1, d2, d3, d4⟩ := disk_atoms hcs hy
  refine ⟨D, hD, ?_, ?_⟩
  · intro i j k l
    rw [hbuild, odf4_trig hD, d1, d2, d3, d4, hc4, hs4]
  · obtain ⟨o00, o11, o01, o10⟩ := odf2_trig hD
    have hfrac : 0 ≤ eps / (a2 0 0 + a2 1 1 + eps) := div_nonneg he ht.le
    have b0 : |(a2 0 0 + a2 1 1) * c2 - (a2 0 0 - a2 1 1)| ≤ eps := by
      have : (a2 0 0 + a2 1 1) * c2 - (a2 0 0 - a2 1 1) = -((a2 0 0 - a2 1 1) * (eps / (a2 0 0 + a2 1 1 + eps))) := by
        rw [hc2]; field_simp; ring
      rw [this, abs_neg, abs_mul, abs_of_nonneg hfrac]
      have hle : |a2 0 0 - a2 1 1| ≤ a2 0 0 + a2 1 1 + eps := abs_le.mpr ⟨by linarith, by linarith⟩
      calc _ ≤ (a2 0 0 + a2 1 1 + eps) * (eps / (a2 0 0 + a2 1 1 + eps)) := mul_le_mul_of_nonneg_right hle hfrac
        _ = eps := by field_simp
    have b1 : |(a2 0 0 + a2 1 1) * s2 - 2 * a2 0 1| ≤ eps := by
      have : (a2 0 0 + a2 1 1) * s2 - 2 * a2 0 1 = -(2 * a2 0 1 * (eps / (a2 0 0 + a2 1 1 + eps))) := by
        rw [hs2]; field_simp; ring
      rw [this, abs_neg, abs_mul, abs_of_nonneg hfrac]
      have hle : |2 * a2 0 1| ≤ a2 0 0 + a2 1 1 + eps := by
        refine abs_le_of_sq_le_sq ?_ ht.le
        nlinarith [sq_nonneg (a2 0 0 - a2 1 1)]
      calc _ ≤ (a2 0 0 + a2 1 1 + eps) * (eps / (a2 0 0 + a2 1 1 + eps)) := mul_le_mul_of_nonneg_right hle hfrac
        _ = eps := by field_simp
    rw [abs_le] at b0 b1
    intro i j
    rw [abs_le]
    fin_cases i <;> fin_cases j
    · show -(eps / 2) ≤ (a2 0 0 + a2 1 1) * odf2 D 0 0 - a2 0 0 ∧ (a2 0 0 + a2 1 1) * odf2 D 0 0 - a2 0 0 ≤ eps / 2
      rw [o00, d1]; constructor <;> linarith
    · show -(eps / 2) ≤ (a2 0 0 + a2 1 1) * odf2 D 0 1 - a2 0 1 ∧ (a2 0 0 + a2 1 1) * odf2 D 0 1 - a2 0 1 ≤ eps / 2
      rw [o01, d2]; constructor <;> linarith
    · show -(eps / 2) ≤ (a2 0 0 + a2 1 1) * odf2 D 1 0 - a2 1 0 ∧ (a2 0 0 + a2 1 1) * odf2 D 1 0 - a2 1 0 ≤ eps / 2
      rw [o10, d2, hs]; constructor <;> linarith
    · show -(eps / 2) ≤ (a2 0 0 + a2 1 1) * odf2 D 1 1 - a2 1 1 ∧ (a2 0 0 + a2 1 1) * odf2 D 1 1 - a2 1 1 ≤ eps / 2
      rw [o11, d1]; constructor <;> linarith

/-- A case: a tensor of trace `4/5` with the default `eps`. -/
example : (0 : ℝ) ≤ 1 / 2 ∧ (0 : ℝ) ≤ 3 / 10 ∧ ((1 / 5 : ℝ)) ^ 2 ≤ 1 / 2 * (3 / 10) ∧
    (0 : ℝ) < 1 / 2 + 3 / 10 + 1 / 10 ^ 12 ∧ ((3 / 5 : ℝ)) ^ 2 + (1 / 2) ^ 2 ≤ 1 := by norm_num

private theorem index_symm (i j k l : Fin 2) : (⟨i + j + k + l, by omega⟩ : Fin 5) = ⟨j + i + k + l, by omega⟩ ∧
    (⟨i + j + k + l, by omega⟩ : Fin 5) = ⟨i + k + j + l, by omega⟩ ∧
    (⟨i + j + k + l, by omega⟩ : Fin 5) = ⟨i + j + l + k, by omega⟩ := by
  refine ⟨Fin.ext ?_, Fin.ext ?_, Fin.ext ?_⟩ <;> simp only <;> omega

/-- **C90.** The closure-free tensor is fully symmetric, contracts to the given tensor when `eps` is zero and within `eps / 2`
otherwise, and vanishes when the trace does. -/
theorem C90_build_contraction (a2 : Arr2 ℝ 2) (y1 y2 eps : ℝ) (hs : a2 1 0 = a2 0 1) :
    FullySymmetric (buildA4 a2 y1 y2 eps) ∧ (a2 0 0 + a2 1 1 ≠ 0 → Contracts (buildA4 a2 y1 y2 0) a2) ∧
    (0 ≤ a2 0 0 → 0 ≤ a2 1 1 → a2 0 1 ^ 2 ≤ a2 0 0 * a2 1 1 → 0 ≤ eps → 0 < a2 0 0 + a2 1 1 + eps →
      ∀ i j, |∑ k, buildA4 a2 y1 y2 eps i j k k - a2 i j| ≤ eps / 2) ∧
    (a2 0 0 + a2 1 1 = 0 → ∀ i j k l, buildA4 a2 y1 y2 eps i j k l = 0) := by
  have hcon : ∀ eps i j, ∑ k, buildA4 a2 y1 y2 eps i j k k = (a2 0 0 + a2 1 1)
      * (![![(1 + (a2 0 0 - a2 1 1) / (a2 0 0 + a2 1 1 + eps)) / 2, a2 0 1 / (a2 0 0 + a2 1 1 + eps)],
          ![a2 0 1 / (a2 0 0 + a2 1 1 + eps), (1 - (a2 0 0 - a2 1 1) / (a2 0 0 + a2 1 1 + eps)) / 2]] : Arr2 ℝ 2) i j := by
    intro eps i j
    rw [Fin.sum_univ_two]
    fin_cases i <;> fin_cases j <;> simp [buildA4] <;> ring
  refine ⟨?_, ?_, ?_, ?_⟩
  · obtain ⟨c2, s2, c4, s4, -, -, -, -, hb⟩ := buildA4_entries a2 y1 y2 eps
    intro i j k l
    obtain ⟨e1, e2, e3⟩ := index_symm i j k l
    refine ⟨?_, ?_, ?_⟩
    · rw [hb, hb, e1]
    · rw [hb, hb, e2]
    · rw [hb, hb, e3]
  · intro ht i j
    rw [hcon]
    fin_cases i <;> fin_cases j <;> simp <;> try rw [hs]
    all_goals field_simp
    all_goals ring
  · intro h0 h1 hd he ht i j
    have hz : (0 : ℝ) ^ 2 + 0 ^ 2 ≤ 1 := by norm_num
    obtain ⟨D, hD, hb, hbound⟩ := C90_build_admissible a2 0 0 eps h0 h1 hs hd he ht hz
    have heq : ∑ k, buildA4 a2 y1 y2 eps i j k k = ∑ k, buildA4 a2 0 0 eps i j k k := by
      rw [hcon]
      rw [Fin.sum_univ_two]
      fin_cases i <;> fin_cases j <;> simp [buildA4] <;> ring
    rw [heq, Finset.sum_congr rfl fun k _ => hb i j k k, ← Finset.mul_sum, odf4_contracts hD.unit]
    exact hbound i j
  · intro ht i j k l
    obtain ⟨c2, s2, c4, s4, -, -, -, -, hb⟩ := buildA4_entries a2 y1 y2 eps
    rw [hb, ht, zero_mul]

/-- Second trigonometric moments are confined by the first. -/
theorem trig_bound {D : Odf 2} (h : IsOdf D) :
    let c := trigMoment D (fun u _ => u)
    let s := trigMoment D (fun _ v => v)
    c ^ 2 + s ^ 2 ≤ 1 ∧
    (trigMoment D (fun u v => u * u - v * v) - (c * c - s * s)) ^ 2 + (trigMoment D (fun u v => 2 * u * v) - 2 * c * s) ^ 2
      ≤ (1 - (c * c + s * s)) ^ 2 := by
  intro c s
  have hlin : ∀ a b e : ℝ, trigMoment D (fun u v => a * u + b * v + e) = a * c + b * s + e := by
    intro a b e
    have : ∀ D : Odf 2, trigMoment D (fun u v => a * u + b * v + e)
        = a * trigMoment D (fun u _ => u) + b * trigMoment D (fun _ v => v) + e * (D.map fun f => f.1).sum := by
      intro D
      induction D with
      | nil => simp [trigMoment]
      | cons f D ih =>
        simp only [trigMoment, List.map_cons, List.sum_cons] at ih ⊢
        rw [ih]; ring
    rw [this, h.total, mul_one]
  have hunit : ∀ f ∈ D, (f.2 0 ^ 2 - f.2 1 ^ 2) ^ 2 + (2 * f.2 0 * f.2 1) ^ 2 = 1 := by
    intro f hf
    have := h.unit f hf
    rw [Fin.sum_univ_two] at this
    have e : (f.2 0 ^ 2 - f.2 1 ^ 2) ^ 2 + (2 * f.2 0 * f.2 1) ^ 2 = (f.2 0 ^ 2 + f.2 1 ^ 2) ^ 2 := by ring
    rw [e, this]; norm_num
  have hle : ∀ g g' : ℝ → ℝ → ℝ, (∀ u v, u ^ 2 + v ^ 2 = 1 → g u v ≤ g' u v) → trigMoment D g ≤ trigMoment D g' := by
    intro g g' hg
    refine List.sum_le_sum fun f hf => ?_
    exact mul_le_mul_of_nonneg_left (hg _ _ (hunit f hf)) (h.nonneg f hf)
  have hquad : ∀ a b : ℝ, trigMoment D (fun u v => a * (u * u - v * v) + b * (2 * u * v)
        + (-2 * (a * c + b * s)) * u + (-2 * (b * c - a * s)) * v + (a * (c * c - s * s) + b * (2 * c * s)))
      = a * (trigMoment D (fun u v => u * u - v * v) - (c * c - s * s))
        + b * (trigMoment D (fun u v => 2 * u * v) - 2 * c * s) := by
    intro a b
    have : ∀ D : Odf 2, ∀ p q e : ℝ, trigMoment D (fun u v => a * (u * u - v * v) + b * (2 * u * v) + p * u + q * v + e)
        = a * trigMoment D (fun u v => u * u - v * v) + b * trigMoment D (fun u v => 2 * u * v)
          + p * trigMoment D (fun u _ => u) + q * trigMoment D (fun _ v => v) + e * (D.map fun f => f.1).sum := by
      intro D p q e
      induction D with
      | nil => simp [trigMoment]
      | cons f D ih =>
        simp only [trigMoment, List.map_cons, List.sum_cons] at ih ⊢
        rw [ih]; ring
    rw [this, h.total]
    show a * _ + b * _ + -2 * (a * c + b * s) * c + -2 * (b * c - a * s) * s + _ = _
    ring
  have hcs : c ^ 2 + s ^ 2 ≤ 1 := by
    have h1 := hle (fun u v => c * u + s * v + 0) (fun u v => (0 : ℝ) * u + 0 * v + (1 + c ^ 2 + s ^ 2) / 2) (by
      intro u v huv
      nlinarith [sq_nonneg (u - c), sq_nonneg (v - s)])
    rw [hlin, hlin] at h1
    nlinarith
  refine ⟨hcs, ?_⟩
  obtain ⟨X, hX⟩ : ∃ X, X = trigMoment D (fun u v => u * u - v * v) - (c * c - s * s) := ⟨_, rfl⟩
  obtain ⟨Y, hY⟩ : ∃ Y, Y = trigMoment D (fun u v => 2 * u * v) - 2 * c * s := ⟨_, rfl⟩
  rw [← hX, ← hY]
  have hdir : ∀ a b : ℝ, a ^ 2 + b ^ 2 ≤ 1 → a * X + b * Y ≤ 1 - (c * c + s * s) := by
    intro a b hab
    rw [hX, hY, ← hquad a b]
    have h1 := hle (fun u v => a * (u * u - v * v) + b * (2 * u * v)
        + (-2 * (a * c + b * s)) * u + (-2 * (b * c - a * s)) * v + (a * (c * c - s * s) + b * (2 * c * s)))
      (fun u v => (-2 * c) * u + (-2 * s) * v + (1 + (c * c + s * s))) (by
        intro u v huv
        -- with `z = (u, v) - (c, s)` the claim is `Re ((a - i b) z²) ≤ |z|²`
        obtain ⟨p, hp⟩ : ∃ p, p = u - c := ⟨_, rfl⟩
        obtain ⟨q, hq⟩ : ∃ q, q = v - s := ⟨_, rfl⟩
        have e1 : a * (u * u - v * v) + b * (2 * u * v) + (-2 * (a * c + b * s)) * u + (-2 * (b * c - a * s)) * v
            + (a * (c * c - s * s) + b * (2 * c * s)) = a * (p ^ 2 - q ^ 2) + b * (2 * p * q) := by
          rw [hp, hq]; ring
        have e2 : (-2 * c) * u + (-2 * s) * v + (1 + (c * c + s * s)) = p ^ 2 + q ^ 2 := by
          rw [hp, hq, ← huv]; ring
        rw [e1, e2]
        have h3 : (a * (p ^ 2 - q ^ 2) + b * (2 * p * q)) ^ 2 ≤ (p ^ 2 + q ^ 2) ^ 2 := by
          nlinarith [sq_nonneg (a * (2 * p * q) - b * (p ^ 2 - q ^ 2)), sq_nonneg (p ^ 2 + q ^ 2),
            mul_nonneg (sub_nonneg.mpr hab) (sq_nonneg (p ^ 2 + q ^ 2))]
        exact le_of_abs_le (abs_le_of_sq_le_sq h3 (by positivity)))
    rw [hlin] at h1
    refine h1.trans (le_of_eq ?_)
    ring
  have hw : 0 ≤ 1 - (c * c + s * s) := by nlinarith
  obtain ⟨n, hn⟩ : ∃ n, n = Real.sqrt (X ^ 2 + Y ^ 2) := ⟨_, rfl⟩
  have hn2 : n ^ 2 = X ^ 2 + Y ^ 2 := by rw [hn]; exact Real.sq_sqrt (by positivity)
  have hn0 : 0 ≤ n := by rw [hn]; exact Real.sqrt_nonneg _
  rcases eq_or_lt_of_le hn0 with h0 | h0
  · rw [← hn2, ← h0]
    nlinarith [sq_nonneg (1 - (c * c + s * s))]
  · have h1 := hdir (X / n) (Y / n) (by rw [div_pow, div_pow, ← add_div, ← hn2, div_self (by positivity)])
    have h2 : X / n * X + Y / n * Y = n := by
      field_simp; linarith [hn2]
    rw [h2] at h1
    rw [← hn2]
    exact pow_le_pow_left₀ hn0 h1 2

/-- **C90.** Every fourth moment is reached: for each distribution of fibres there are parameters in the unit disk that reproduce its
fourth-order tensor exactly from its second-order one, at any positive trace. -/
theorem C90_build_complete {D : Odf 2} (h : IsOdf D) {tau : ℝ} (ht : 0 < tau) :
    ∃ y1 y2 : ℝ, y1 ^ 2 + y2 ^ 2 ≤ 1 ∧
      ∀ i j k l, buildA4 (fun i j => tau * odf2 D i j) y1 y2 0 i j k l = tau * odf4 D i j k l := by
  obtain ⟨hcs, hb⟩ := trig_bound h
  obtain ⟨o00, o11, o01, o10⟩ := odf2_trig h
  obtain ⟨c, hc⟩ : ∃ c, c = trigMoment D (fun u _ => u) := ⟨_, rfl⟩
  obtain ⟨s, hs⟩ : ∃ s, s = trigMoment D (fun _ v => v) := ⟨_, rfl⟩
  obtain ⟨X, hX⟩ : ∃ X, X = trigMoment D (fun u v => u * u - v * v) := ⟨_, rfl⟩
  obtain ⟨Y, hY⟩ : ∃ Y, Y = trigMoment D (fun u v => 2 * u * v) := ⟨_, rfl⟩
  rw [← hc, ← hs] at hcs
  rw [← hc, ← hs, ← hX, ← hY] at hb
  rw [← hc] at o00 o11
  rw [← hs] at o01 o10
  have hfind : ∃ y1 y2 : ℝ, y1 ^ 2 + y2 ^ 2 ≤ 1 ∧ X = c * c - s * s + y1 * (1 - (c * c + s * s)) ∧
      Y = 2 * c * s + y2 * (1 - (c * c + s * s)) := by
    rcases eq_or_ne (1 - (c * c + s * s)) 0 with h0 | h0
    · rw [h0] at hb
      have e1 : (X - (c * c - s * s)) ^ 2 = 0 := by nlinarith [sq_nonneg (X - (c * c - s * s)), sq_nonneg (Y - 2 * c * s)]
      have e2 : (Y - 2 * c * s) ^ 2 = 0 := by nlinarith [sq_nonneg (X - (c * c - s * s)), sq_nonneg (Y - 2 * c * s)]
      have e1' := pow_eq_zero_iff two_ne_zero |>.mp e1
      have e2' := pow_eq_zero_iff two_ne_zero |>.mp e2
      exact ⟨0, 0, by norm_num, by linarith, by linarith⟩
    · refine ⟨(X - (c * c - s * s)) / (1 - (c * c + s * s)), (Y - 2 * c * s) / (1 - (c * c + s * s)), ?_, ?_, ?_⟩
      · rw [div_pow, div_pow, ← add_div, div_le_one (by positivity)]
        exact hb
      · rw [div_mul_cancel₀ _ h0]; ring
      · rw [div_mul_cancel₀ _ h0]; ring
  obtain ⟨y1, y2, hy, e1, e2⟩ := hfind
  refine ⟨y1, y2, hy, ?_⟩
  obtain ⟨c2, s2, c4, s4, hc2, hs2, hc4, hs4, hbuild⟩ := buildA4_entries (fun i j => tau * odf2 D i j) y1 y2 0
  have htr : tau * odf2 D 0 0 + tau * odf2 D 1 1 = tau := by rw [o00, o11]; ring
  have hcc : c2 = c := by rw [hc2, htr, o00, o11]; field_simp; ring
  have hss : s2 = s := by rw [hs2, htr, o01]; field_simp; ring
  intro i j k l
  rw [hbuild, htr, odf4_trig h, ← hc, ← hs, ← hX, ← hY, e1, e2, hc4, hs4, hcc, hss]

/-- **C90.** Parameters outside the disk are not refused but describe no fibres: unless all fibres lie along one axis, no
distribution has the tensor that is built. -/
theorem C90_outside_disk (a2 : Arr2 ℝ 2) (y1 y2 : ℝ) (ht : a2 0 0 + a2 1 1 = 1) (hd : a2 0 1 ^ 2 < a2 0 0 * a2 1 1)
    (hy : 1 < y1 ^ 2 + y2 ^ 2) : ¬ ∃ D : Odf 2, IsOdf D ∧ ∀ i j k l, buildA4 a2 y1 y2 0 i j k l = odf4 D i j k l := by
  rintro ⟨D, h, heq⟩
  obtain ⟨-, hb⟩ := trig_bound h
  obtain ⟨c2, s2, c4, s4, hc2, hs2, hc4, hs4, hbuild⟩ := buildA4_entries a2 y1 y2 0
  rw [ht] at hbuild hc2 hs2
  have g0 := heq 0 0 0 0
  have g1 := heq 0 0 0 1
  have g2 := heq 0 0 1 1
  have g3 := heq 0 1 1 1
  rw [hbuild, odf4_trig h] at g0 g1 g2 g3
  obtain ⟨c, hc⟩ : ∃ c, c = trigMoment D (fun u _ => u) := ⟨_, rfl⟩
  obtain ⟨s, hs⟩ : ∃ s, s = trigMoment D (fun _ v => v) := ⟨_, rfl⟩
  obtain ⟨X, hX⟩ : ∃ X, X = trigMoment D (fun u v => u * u - v * v) := ⟨_, rfl⟩
  obtain ⟨Y, hY⟩ : ∃ Y, Y = trigMoment D (fun u v => 2 * u * v) := ⟨_, rfl⟩
  rw [← hc, ← hs, ← hX, ← hY] at g0 g1 g2 g3
  rw [← hc, ← hs, ← hX, ← hY] at hb
  simp at g0 g1 g2 g3
  have e4 : c4 = X := by linarith
  have e2 : c2 = c := by linarith
  have es : s2 = s := by linarith
  have e5 : s4 = Y := by linarith
  rw [← e4, ← e2, ← es, ← e5, hc4, hs4] at hb
  have hw : 0 < 1 - (c2 * c2 + s2 * s2) := by
    rw [hc2, hs2]
    have : a2 1 1 = 1 - a2 0 0 := by linarith
    rw [this] at hd ⊢
    norm_num
    nlinarith
  have : (y1 ^ 2 + y2 ^ 2) * (1 - (c2 * c2 + s2 * s2)) ^ 2 ≤ 1 * (1 - (c2 * c2 + s2 * s2)) ^ 2 := by
    refine le_trans (le_of_eq ?_) (hb.trans (le_of_eq ?_)) <;> ring
  exact absurd (le_of_mul_le_mul_right this (by positivity)) (not_le.mpr hy)

/-- A case: the random tensor with `y = (2, 0)`. -/
example : (1 / 2 : ℝ) + 1 / 2 = 1 ∧ (0 : ℝ) ^ 2 < 1 / 2 * (1 / 2) ∧ (1 : ℝ) < 2 ^ 2 + 0 ^ 2 := by norm_num

/-- **C90.** When all fibres lie along one axis the parameters have no effect: the fourth-order tensor is exact. -/
theorem C90_build_aligned (p : Fin 2 → ℝ) (hp : ∑ i, p i ^ 2 = 1) {tau : ℝ} (ht : tau ≠ 0) (y1 y2 : ℝ) (i j k l : Fin 2) :
    buildA4 (fun i j => tau * (p i * p j)) y1 y2 0 i j k l = tau * (p i * p j * p k * p l) := by
  have hodf : IsOdf ([(1, p)] : Odf 2) := by
    refine ⟨?_, ?_, ?_⟩
    · intro f hf; simp only [List.mem_singleton] at hf; rw [hf]; norm_num
    · simp
    · intro f hf; simp only [List.mem_singleton] at hf; rw [hf]; exact hp
  rw [Fin.sum_univ_two] at hp
  obtain ⟨c2, s2, c4, s4, hc2, hs2, hc4, hs4, hbuild⟩ := buildA4_entries (fun i j => tau * (p i * p j)) y1 y2 0
  have htr : tau * (p 0 * p 0) + tau * (p 1 * p 1) = tau := by linear_combination tau * hp
  have hcc : c2 = p 0 ^ 2 - p 1 ^ 2 := by rw [hc2, htr, add_zero, div_eq_iff ht]; ring
  have hss : s2 = 2 * p 0 * p 1 := by rw [hs2, htr, add_zero, div_eq_iff ht]; ring
  have hw : c2 * c2 + s2 * s2 = 1 := by rw [hcc, hss]; linear_combination (p 0 ^ 2 + p 1 ^ 2 + 1) * hp
  rw [hw] at hc4 hs4
  have h4 : p i * p j * p k * p l = odf4 ([(1, p)] : Odf 2) i j k l := by simp [odf4]
  rw [hbuild, htr, h4, odf4_trig hodf, hc4, hs4, hcc, hss]
  simp [trigMoment]

end Verif.Props
