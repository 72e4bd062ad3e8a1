import Verif.Props.Cohesive
import Verif.Lemmas.Kernels
import Mathlib.Tactic.Ring
import Mathlib.Tactic.Linarith
import Mathlib.Tactic.Positivity
import Mathlib.Algebra.Order.BigOperators.Group.Finset

/-!
# Cohesive interfaces: C88
-/

namespace Verif.Props
open Verif.Model

/-! ## Specification -/

/-- The flat vector of a nodal field with `vec` components on `N` nodes. -/
def flatField (N vec : ℕ) (U : ℕ → ℕ → ℝ) : List ℝ := (grid N vec U).flatten

/-- An interface of `m` pairs: node `T i` above, node `B i` below, normal `nrm i`, weight `w i`. -/
structure PairData where
  m : ℕ
  T : ℕ → ℕ
  B : ℕ → ℕ
  w : ℕ → ℝ
  nrm : ℕ → ℕ → ℝ

/-- The arguments a user passes for such an interface. -/
noncomputable def PairData.build (p : PairData) (vec : ℕ) (beta : ℝ) : Except PyErr CohesiveInterface :=
  CohesiveInterface.create ((List.range p.m).map fun i => (p.T i : ℤ)) ((List.range p.m).map fun i => (p.B i : ℤ))
    ((List.range p.m).map p.w) (grid p.m vec p.nrm) vec beta

/-- Inner product of two vectors with `vec` components. -/
noncomputable def dotv (vec : ℕ) (a b : ℕ → ℝ) : ℝ := ∑ c ∈ Finset.range vec, a c * b c

/-- The displacement jump of a pair. -/
def gap (U : ℕ → ℕ → ℝ) (t b : ℕ) (c : ℕ) : ℝ := U t c - U b c

/-- `δ_n = jump · n`. -/
noncomputable def gapNormal (vec : ℕ) (j n : ℕ → ℝ) : ℝ := dotv vec j n

/-- `|jump - δ_n n|²`. -/
noncomputable def gapSlideSq (vec : ℕ) (j n : ℕ → ℝ) : ℝ :=
  dotv vec (fun c => j c - gapNormal vec j n * n c) (fun c => j c - gapNormal vec j n * n c)

/-- `sqrt(⟨δ_n⟩₊² + β² δ_t²)`, with the regularisation `1e-30` under the root. -/
noncomputable def gapOpening (vec : ℕ) (beta : ℝ) (j n : ℕ → ℝ) : ℝ :=
  Real.sqrt ((max (gapNormal vec j n) 0) ^ 2 + beta ^ 2 * gapSlideSq vec j n + 1 / 10 ^ 30)

/-! ## Proofs -/

theorem zipWith_range {A B C : Type*} (f : A → B → C) (m : ℕ) (a : ℕ → A) (b : ℕ → B) :
    List.zipWith f ((List.range m).map a) ((List.range m).map b) = (List.range m).map fun i => f (a i) (b i) := by
  rw [List.zipWith_map]
  simp [List.zipWith_self]

theorem sum_range_eq (n : ℕ) (f : ℕ → ℝ) : ((List.range n).map f).sum = ∑ j ∈ Finset.range n, f j := by
  induction n with
  | zero => rfl
  | succ n ih => rw [List.range_succ, List.map_append, List.sum_append, Finset.sum_range_succ, ih]; simp

theorem normalOpening_eq (vec : ℕ) (j n : ℕ → ℝ) :
    normalOpening ((List.range vec).map j) ((List.range vec).map n) = gapNormal vec j n := by
  rw [normalOpening, zipWith_range, sum_range_eq]; rfl

theorem tangentialJump_eq (vec : ℕ) (j n : ℕ → ℝ) :
    tangentialJump ((List.range vec).map j) ((List.range vec).map n)
      = (List.range vec).map fun c => j c - gapNormal vec j n * n c := by
  rw [tangentialJump, normalOpening_eq, zipWith_range]

theorem slide_eq (vec : ℕ) (j n : ℕ → ℝ) :
    ((tangentialJump ((List.range vec).map j) ((List.range vec).map n)).map fun x => x ^ 2).sum = gapSlideSq vec j n := by
  rw [tangentialJump_eq, List.map_map, sum_range_eq, gapSlideSq, dotv]
  exact Finset.sum_congr rfl fun c _ => by simp only [Function.comp_apply]; ring

theorem effectiveOpening_eq (vec : ℕ) (beta : ℝ) (j n : ℕ → ℝ) :
    effectiveOpening beta ((List.range vec).map j) ((List.range vec).map n) = gapOpening vec beta j n := by
  simp only [effectiveOpening, slide_eq, normalOpening_eq]
  rfl

theorem grid_flatten_length (N vec : ℕ) (U : ℕ → ℕ → ℝ) : (grid N vec U).flatten.length = N * vec := by
  unfold grid
  rw [List.length_flatten, List.map_map]
  have : (List.length ∘ fun a => (List.range vec).map (U a)) = fun _ => vec := by funext a; simp
  rw [this]; simp

theorem nodeRows_flatField (N vec : ℕ) (hv : 0 < vec) (U : ℕ → ℕ → ℝ) : nodeRows vec (flatField N vec U) = .ok (grid N vec U) := by
  have hl : (flatField N vec U).length = N * vec := grid_flatten_length N vec U
  rw [nodeRows, hl, if_neg (by simp; omega), Nat.mul_div_cancel _ hv]
  have := reshape_grid N vec U []
  rw [List.append_nil] at this
  exact congrArg Except.ok this

theorem grid_row (N vec : ℕ) (U : ℕ → ℕ → ℝ) {a : ℕ} (ha : a < N) : (grid N vec U).getD a [] = (List.range vec).map (U a) := by
  simp [grid, List.getD_eq_getElem?_getD, ha]

theorem jaxIndex_nat {N a : ℕ} (ha : a < N) : Solution.jaxIndex N (a : ℤ) = a := by
  simp only [Solution.jaxIndex]
  rw [if_neg (by omega)]
  simp; omega

theorem build_ok (p : PairData) (vec : ℕ) (beta : ℝ) :
    p.build vec beta = .ok ⟨(List.range p.m).map fun i => (p.T i : ℤ), (List.range p.m).map fun i => (p.B i : ℤ),
      (List.range p.m).map p.w, grid p.m vec p.nrm, vec, beta⟩ := by
  unfold PairData.build CohesiveInterface.create
  rw [if_pos]
  refine ⟨by simp [grid], ?_⟩
  intro row hrow
  simp only [grid, List.mem_map] at hrow
  obtain ⟨a, _, rfl⟩ := hrow
  simp

theorem jump_eq (p : PairData) (N vec : ℕ) (hv : 0 < vec) (beta : ℝ) (hT : ∀ i < p.m, p.T i < N) (hB : ∀ i < p.m, p.B i < N)
    (U : ℕ → ℕ → ℝ) (c : CohesiveInterface) (hc : p.build vec beta = .ok c) :
    c.jump (flatField N vec U) = .ok (grid p.m vec fun i => gap U (p.T i) (p.B i)) := by
  rw [build_ok] at hc
  cases hc
  simp only [CohesiveInterface.jump, nodeRows_flatField N vec hv U]
  refine congrArg Except.ok ?_
  rw [zipWith_range]
  unfold grid
  apply List.map_congr_left
  intro i hi
  have hi' : i < p.m := by simpa using hi
  have hlen : ((List.range N).map fun a => (List.range vec).map (U a)).length = N := by simp
  rw [hlen, jaxIndex_nat (hT i hi'), jaxIndex_nat (hB i hi')]
  have h1 := grid_row N vec U (hT i hi')
  have h2 := grid_row N vec U (hB i hi')
  unfold grid at h1 h2
  rw [h1, h2, zipWith_range]
  rfl

/-- `get_opening` returns, pair by pair, the mixed-mode opening of the jump. -/
theorem C88_opening (p : PairData) (N vec : ℕ) (hv : 0 < vec) (beta : ℝ) (hT : ∀ i < p.m, p.T i < N)
    (hB : ∀ i < p.m, p.B i < N) (U : ℕ → ℕ → ℝ) :
    ∃ c, p.build vec beta = .ok c ∧ c.opening (flatField N vec U)
      = .ok ((List.range p.m).map fun i => gapOpening vec beta (gap U (p.T i) (p.B i)) (p.nrm i)) := by
  refine ⟨_, build_ok p vec beta, ?_⟩
  unfold CohesiveInterface.opening
  rw [jump_eq p N vec hv beta hT hB U _ (build_ok p vec beta)]
  refine congrArg Except.ok ?_
  dsimp only
  unfold grid
  rw [zipWith_range]
  exact List.map_congr_left fun i _ => effectiveOpening_eq _ _ _ _

/-- `get_opening_components` returns the signed normal and the unsigned tangential part. -/
theorem C88_components (p : PairData) (N vec : ℕ) (hv : 0 < vec) (beta : ℝ) (hT : ∀ i < p.m, p.T i < N)
    (hB : ∀ i < p.m, p.B i < N) (U : ℕ → ℕ → ℝ) :
    ∃ c, p.build vec beta = .ok c ∧ c.openingComponents (flatField N vec U)
      = .ok ((List.range p.m).map fun i => (gapNormal vec (gap U (p.T i) (p.B i)) (p.nrm i),
          Real.sqrt (gapSlideSq vec (gap U (p.T i) (p.B i)) (p.nrm i)))) := by
  refine ⟨_, build_ok p vec beta, ?_⟩
  unfold CohesiveInterface.openingComponents
  rw [jump_eq p N vec hv beta hT hB U _ (build_ok p vec beta)]
  refine congrArg Except.ok ?_
  dsimp only
  unfold grid
  rw [zipWith_range]
  exact List.map_congr_left fun i _ => by rw [normalOpening_eq, slide_eq]

/-- The interface energy is the weighted sum of the potential over the pairs. -/
theorem C88_energy (p : PairData) (N vec : ℕ) (hv : 0 < vec) (beta : ℝ) (hT : ∀ i < p.m, p.T i < N)
    (hB : ∀ i < p.m, p.B i < N) (U : ℕ → ℕ → ℝ) (phi : ℝ → ℝ → ℝ) (dmax : ℕ → ℝ) :
    ∃ c, p.build vec beta = .ok c ∧ c.energy phi (flatField N vec U) ((List.range p.m).map dmax)
      = .ok (∑ i ∈ Finset.range p.m, p.w i * phi (gapOpening vec beta (gap U (p.T i) (p.B i)) (p.nrm i)) (dmax i)) := by
  obtain ⟨c, hc, ho⟩ := C88_opening p N vec hv beta hT hB U
  refine ⟨c, hc, ?_⟩
  have hw : c.weights = (List.range p.m).map p.w := by rw [build_ok] at hc; cases hc; rfl
  unfold CohesiveInterface.energy
  rw [ho, hw]
  refine congrArg Except.ok ?_
  rw [zipWith_range, zipWith_range, sum_range_eq]
  exact Finset.sum_congr rfl fun i _ => mul_comm _ _

/-- The energy depends on the displacement of the two sides relative to each other only: a translation of the whole
body costs nothing, so the cohesive forces are in equilibrium. -/
theorem C88_rigid_translation (p : PairData) (N vec : ℕ) (hv : 0 < vec) (beta : ℝ) (hT : ∀ i < p.m, p.T i < N)
    (hB : ∀ i < p.m, p.B i < N) (U : ℕ → ℕ → ℝ) (shift : ℕ → ℝ) (phi : ℝ → ℝ → ℝ) (dmax : ℕ → ℝ) :
    ∃ c, p.build vec beta = .ok c ∧ c.energy phi (flatField N vec fun a k => U a k + shift k) ((List.range p.m).map dmax)
      = c.energy phi (flatField N vec U) ((List.range p.m).map dmax) := by
  obtain ⟨c, hc, h1⟩ := C88_energy p N vec hv beta hT hB U phi dmax
  obtain ⟨c', hc', h2⟩ := C88_energy p N vec hv beta hT hB (fun a k => U a k + shift k) phi dmax
  rw [hc] at hc'
  cases hc'
  refine ⟨c, hc, ?_⟩
  rw [h1, h2]
  have : ∀ i, gap (fun a k => U a k + shift k) (p.T i) (p.B i) = gap U (p.T i) (p.B i) := by
    intro i; funext k; simp only [gap]; ring
  simp only [this]

theorem gapSlideSq_nonneg (vec : ℕ) (j n : ℕ → ℝ) : 0 ≤ gapSlideSq vec j n := by
  unfold gapSlideSq dotv
  exact Finset.sum_nonneg fun c _ => mul_self_nonneg (j c - gapNormal vec j n * n c)

/-- With a unit normal, normal and tangential parts split the jump orthogonally. -/
theorem C88_orthogonal_split (vec : ℕ) (j n : ℕ → ℝ) (hn : dotv vec n n = 1) :
    gapNormal vec j n ^ 2 + gapSlideSq vec j n = dotv vec j j := by
  have h : gapSlideSq vec j n = dotv vec j j - 2 * gapNormal vec j n * dotv vec j n + gapNormal vec j n ^ 2 * dotv vec n n := by
    simp only [gapSlideSq, dotv, Finset.mul_sum]
    rw [← Finset.sum_sub_distrib, ← Finset.sum_add_distrib]
    exact Finset.sum_congr rfl fun c _ => by ring
  rw [h, hn]
  simp only [gapNormal]; ring

/-- The three modes for a unit normal. Opening by `a` along the normal gives `sqrt(a² + 1e-30)`; closing contact gives the
residual opening `1e-15`; pure sliding by `s` gives `sqrt(β² |s|² + 1e-30)`; and `beta = 0` ignores sliding. -/
theorem C88_modes (vec : ℕ) (beta : ℝ) (n : ℕ → ℝ) (hn : dotv vec n n = 1) :
    (∀ a, 0 ≤ a → gapOpening vec beta (fun c => a * n c) n = Real.sqrt (a ^ 2 + 1 / 10 ^ 30))
      ∧ (∀ a, a ≤ 0 → gapOpening vec beta (fun c => a * n c) n = 1 / 10 ^ 15)
      ∧ (∀ s : ℕ → ℝ, dotv vec s n = 0 → gapOpening vec beta s n = Real.sqrt (beta ^ 2 * dotv vec s s + 1 / 10 ^ 30))
      ∧ (∀ j : ℕ → ℝ, gapOpening vec 0 j n = Real.sqrt ((max (dotv vec j n) 0) ^ 2 + 1 / 10 ^ 30))
      ∧ (∀ j : ℕ → ℝ, 0 ≤ dotv vec j n → gapOpening vec 1 j n = Real.sqrt (dotv vec j j + 1 / 10 ^ 30)) := by
  have hN : ∀ a : ℝ, gapNormal vec (fun c => a * n c) n = a := by
    intro a
    have : gapNormal vec (fun c => a * n c) n = a * dotv vec n n := by
      simp only [gapNormal, dotv, Finset.mul_sum]; exact Finset.sum_congr rfl fun c _ => by ring
    rw [this, hn, mul_one]
  have hS : ∀ a : ℝ, gapSlideSq vec (fun c => a * n c) n = 0 := by
    intro a
    simp only [gapSlideSq, hN]
    simp [dotv]
  refine ⟨fun a ha => ?_, fun a ha => ?_, fun s hs => ?_, fun j => ?_, fun j hj => ?_⟩
  · rw [gapOpening, hN, hS, max_eq_left ha, mul_zero, add_zero]
  · rw [gapOpening, hN, hS, max_eq_right ha, mul_zero, add_zero]
    rw [show (0 : ℝ) ^ 2 + 1 / 10 ^ 30 = (1 / 10 ^ 15) ^ 2 by norm_num, Real.sqrt_sq (by positivity)]
  · have h0 : gapNormal vec s n = 0 := hs
    have hsl : gapSlideSq vec s n = dotv vec s s := by
      have := C88_orthogonal_split vec s n hn
      rw [h0] at this; linarith
    rw [gapOpening, h0, hsl]; simp
  · rw [gapOpening]; simp [gapNormal]
  · rw [gapOpening, show gapNormal vec j n = dotv vec j n from rfl, max_eq_left hj]
    have := C88_orthogonal_split vec j n hn
    rw [show gapNormal vec j n = dotv vec j n from rfl] at this
    congr 1; linarith

/-- The opening is never below `1e-15`, so the zero of the potential is not reached: with the exponential law an
interface in contact stores at most `Γ (1e-15 / δc)² / 2` per unit area, whether damaged or not. -/
theorem C88_contact_energy {gamma sigmaC : ℝ} (hg : 0 < gamma) (hs : 0 < sigmaC) (vec : ℕ) (beta : ℝ) (n : ℕ → ℝ)
    (hn : dotv vec n n = 1) (a : ℝ) (ha : a ≤ 0) (dmax : ℝ) :
    0 ≤ exponentialPotential gamma sigmaC (gapOpening vec beta (fun c => a * n c) n) dmax
      ∧ exponentialPotential gamma sigmaC (gapOpening vec beta (fun c => a * n c) n) dmax
        ≤ gamma * (1 / 10 ^ 15 / critOpening gamma sigmaC) ^ 2 / 2 := by
  rw [(C88_modes vec beta n hn).2.1 a ha]
  have h0 : (0 : ℝ) < 1 / 10 ^ 15 := by positivity
  refine ⟨((C87_exponential_energy hg hs dmax).1 _ h0.le).1, ?_⟩
  have hbound : exponentialLoad gamma sigmaC (1 / 10 ^ 15) ≤ gamma * (1 / 10 ^ 15 / critOpening gamma sigmaC) ^ 2 / 2 := by
    rw [exponentialLoad_eq]
    set x := (1 : ℝ) / 10 ^ 15 / critOpening gamma sigmaC with hx
    have hx0 : 0 ≤ x := div_nonneg h0.le (critOpening_pos hg hs).le
    have : expCurve x ≤ x ^ 2 / 2 := by
      have hanti : AntitoneOn (fun z => expCurve z - z ^ 2 / 2) (Set.Ici 0) := by
        have hd : ∀ z : ℝ, HasDerivAt (fun z => expCurve z - z ^ 2 / 2) (z * Real.exp (-z) - 2 * z / 2) z := by
          intro z
          have h2 : HasDerivAt (fun y : ℝ => y ^ 2) (2 * z) z := by simpa using hasDerivAt_pow 2 z
          exact (expCurve_deriv z).sub (h2.div_const 2)
        apply antitoneOn_of_deriv_nonpos (convex_Ici 0)
        · exact fun z _ => (hd z).continuousAt.continuousWithinAt
        · exact fun z _ => (hd z).differentiableAt.differentiableWithinAt
        · intro z hz
          rw [interior_Ici] at hz
          have hz0 : (0 : ℝ) < z := hz
          rw [(hd z).deriv]
          have : Real.exp (-z) ≤ 1 := Real.exp_le_one_iff.mpr (by linarith)
          nlinarith
      have := hanti (Set.mem_Ici.mpr le_rfl) (Set.mem_Ici.mpr hx0) hx0
      simp only [expCurve_zero] at this
      linarith
    calc _ ≤ gamma * (x ^ 2 / 2) := mul_le_mul_of_nonneg_left this hg.le
      _ = _ := by ring
  refine le_trans ?_ hbound
  by_cases h : dmax - 1 / 10 ^ 15 ≤ 1 / 10 ^ 15
  · rw [exponentialPotential, law_loading _ h]
  · have h' := not_le.mp h
    have hm : 0 < dmax := by linarith
    rw [exponentialPotential, law_unloading _ h0.le h']
    have hr := exponentialLoad_ratio hg hs h0 (show 1 / 10 ^ 15 ≤ dmax by linarith)
    rw [div_mul_eq_mul_div, div_le_iff₀ (by positivity)]
    have := exponentialLoad_nonneg hg hs h0.le
    nlinarith [mul_nonneg this (show (0 : ℝ) ≤ 1 / 10 ^ 30 by positivity)]

example : dotv 2 (fun c => if c = 1 then 1 else 0) (fun c => if c = 1 then 1 else 0) = 1 := by
  simp [dotv]

/-- `from_axis` accepts exactly the axes of the array (negative ones count from the end) and gives every pair the unit
vector along the axis. -/
theorem C88_from_axis (p : PairData) (vec axis : ℕ) (ha : axis < vec) (beta : ℝ)
    (hn : ∀ i < p.m, ∀ c < vec, p.nrm i c = if c = axis then 1 else 0) :
    CohesiveInterface.fromAxis ((List.range p.m).map fun i => (p.T i : ℤ)) ((List.range p.m).map fun i => (p.B i : ℤ))
        ((List.range p.m).map p.w) axis vec beta = p.build vec beta
      ∧ CohesiveInterface.fromAxis ((List.range p.m).map fun i => (p.T i : ℤ)) ((List.range p.m).map fun i => (p.B i : ℤ))
        ((List.range p.m).map p.w) ((axis : ℤ) - vec) vec beta = p.build vec beta := by
  have hrow : (List.replicate vec (0 : ℝ)).set axis 1 = (List.range vec).map fun c => if c = axis then 1 else 0 := by
    apply List.ext_getElem (by simp)
    intro k h1 h2
    simp only [List.getElem_set, List.getElem_replicate, List.getElem_map, List.getElem_range]
    by_cases h : axis = k
    · rw [if_pos h, if_pos h.symm]
    · rw [if_neg h, if_neg (fun e => h e.symm)]
  have hnorm : (((List.range p.m).map fun i => (p.T i : ℤ)).map fun _ => (List.replicate vec (0 : ℝ)).set axis 1) = grid p.m vec p.nrm := by
    rw [List.map_map, grid]
    apply List.map_congr_left
    intro i hi
    simp only [Function.comp_apply]
    rw [hrow]
    apply List.map_congr_left
    intro c hc
    exact (hn i (by simpa using hi) c (by simpa using hc)).symm
  constructor
  · unfold CohesiveInterface.fromAxis PairData.build
    dsimp only
    rw [if_neg (show ¬ ((axis : ℤ) < 0) by omega), if_pos (show 0 ≤ (axis : ℤ) ∧ (axis : ℤ) < vec by omega), Int.toNat_natCast, hnorm]
  · unfold CohesiveInterface.fromAxis PairData.build
    dsimp only
    rw [if_pos (show (axis : ℤ) - vec < 0 by omega), if_pos (show 0 ≤ (axis : ℤ) - vec + vec ∧ (axis : ℤ) - vec + vec < vec by omega),
      show ((axis : ℤ) - vec + vec).toNat = axis by omega, hnorm]

/-- Other axes, and normals of the wrong shape, are refused. -/
theorem C88_bad_input_refused (top bottom : List ℤ) (weights : List ℝ) (vec : ℕ) (beta : ℝ) :
    (∀ axis : ℤ, axis < -vec ∨ (vec : ℤ) ≤ axis →
      CohesiveInterface.fromAxis top bottom weights axis vec beta = .error .indexError)
    ∧ ∀ normals : List (List ℝ), (normals.length ≠ top.length ∨ ∃ row ∈ normals, row.length ≠ vec) →
      CohesiveInterface.create top bottom weights normals vec beta = .error .valueError := by
  constructor
  · intro axis h
    unfold CohesiveInterface.fromAxis
    dsimp only
    rw [if_neg]
    split <;> omega
  · intro normals h
    unfold CohesiveInterface.create
    rw [if_neg]
    rintro ⟨h1, h2⟩
    rcases h with h | ⟨row, hr, h⟩
    · exact h h1
    · exact h (h2 row hr)

/-! ## Integration weights along a line -/

section trapezoid
variable {K : Type*} [Field K] [LinearOrder K] [IsStrictOrderedRing K]

theorem trapezoid_sum (x : List K) (f : ℕ → K) (n : ℕ) (hn : x.length = n + 1) :
    ((List.range x.length).map fun i => (trapezoidalWeights x).getD i 0 * f i).sum
      = ((List.range n).map fun i => (x.getD (i + 1) 0 - x.getD i 0) * ((f i + f (i + 1)) / 2)).sum := by
  have hlt : ∀ i, i < n + 1 → (trapezoidalWeights x).getD i 0
      = (if 0 < i then (x.getD i 0 - x.getD (i - 1) 0) / 2 else 0) + (if i < n then (x.getD (i + 1) 0 - x.getD i 0) / 2 else 0) := by
    intro i hi
    simp only [trapezoidalWeights, List.getD_eq_getElem?_getD, List.getElem?_map, hn]
    rw [List.getElem?_range hi]
    simp
  rw [hn]
  have hl : ∀ m, m ≤ n + 1 → ((List.range m).map fun i => (if 0 < i then (x.getD i 0 - x.getD (i - 1) 0) / 2 else 0) * f i).sum
      = ((List.range (m - 1)).map fun i => (x.getD (i + 1) 0 - x.getD i 0) / 2 * f (i + 1)).sum := by
    intro m _
    induction m with
    | zero => rfl
    | succ m ih =>
      rw [List.range_succ, List.map_append, List.sum_append, ih (by omega)]
      cases m with
      | zero => simp
      | succ m => simp [List.range_succ]
  have hr : ∀ m, m ≤ n → ((List.range m).map fun i => (if i < n then (x.getD (i + 1) 0 - x.getD i 0) / 2 else 0) * f i).sum
      = ((List.range m).map fun i => (x.getD (i + 1) 0 - x.getD i 0) / 2 * f i).sum := by
    intro m hm
    congr 1
    apply List.map_congr_left
    intro i hi
    have : i < n := lt_of_lt_of_le (by simpa using hi) hm
    rw [if_pos this]
  have e : ((List.range (n + 1)).map fun i => (trapezoidalWeights x).getD i 0 * f i)
      = (List.range (n + 1)).map fun i => (if 0 < i then (x.getD i 0 - x.getD (i - 1) 0) / 2 else 0) * f i
        + (if i < n then (x.getD (i + 1) 0 - x.getD i 0) / 2 else 0) * f i := by
    apply List.map_congr_left
    intro i hi
    rw [hlt i (by simpa using hi), add_mul]
  rw [e, List.sum_map_add, hl (n + 1) le_rfl]
  have e2 : ((List.range (n + 1)).map fun i => (if i < n then (x.getD (i + 1) 0 - x.getD i 0) / 2 else 0) * f i).sum
      = ((List.range n).map fun i => (x.getD (i + 1) 0 - x.getD i 0) / 2 * f i).sum := by
    rw [List.range_succ, List.map_append, List.sum_append, hr n le_rfl]; simp
  rw [e2, Nat.add_sub_cancel, ← List.sum_map_add]
  congr 1
  apply List.map_congr_left
  intro i _
  ring

omit [LinearOrder K] [IsStrictOrderedRing K] in
theorem telescoping (g : ℕ → K) (n : ℕ) : ((List.range n).map fun i => g (i + 1) - g i).sum = g n - g 0 := by
  induction n with
  | zero => simp
  | succ n ih => rw [List.range_succ, List.map_append, List.sum_append, ih]; simp

/-- The weights are those of the trapezoidal rule: they add up to the length of the line, integrate affine functions
exactly, and are non-negative for sorted coordinates. -/
theorem C88_trapezoidal_weights (x : List K) (n : ℕ) (hn : x.length = n + 1) :
    (trapezoidalWeights x).length = x.length
      ∧ (trapezoidalWeights x).sum = x.getD n 0 - x.getD 0 0
      ∧ (∀ a b : K, ((List.range x.length).map fun i => (trapezoidalWeights x).getD i 0 * (a + b * x.getD i 0)).sum
          = (a * x.getD n 0 + b * x.getD n 0 ^ 2 / 2) - (a * x.getD 0 0 + b * x.getD 0 0 ^ 2 / 2))
      ∧ ((∀ i < n, x.getD i 0 ≤ x.getD (i + 1) 0) → ∀ w ∈ trapezoidalWeights x, 0 ≤ w) := by
  have hlen : (trapezoidalWeights x).length = x.length := by simp [trapezoidalWeights]
  have haff : ∀ a b : K, ((List.range x.length).map fun i => (trapezoidalWeights x).getD i 0 * (a + b * x.getD i 0)).sum
      = (a * x.getD n 0 + b * x.getD n 0 ^ 2 / 2) - (a * x.getD 0 0 + b * x.getD 0 0 ^ 2 / 2) := by
    intro a b
    rw [trapezoid_sum x _ n hn, ← telescoping (fun i => a * x.getD i 0 + b * x.getD i 0 ^ 2 / 2) n]
    congr 1
    apply List.map_congr_left
    intro i _
    ring
  refine ⟨hlen, ?_, haff, ?_⟩
  · have h := haff 1 0
    have e : ((List.range x.length).map fun i => (trapezoidalWeights x).getD i 0 * (1 + 0 * x.getD i 0)) = trapezoidalWeights x := by
      apply List.ext_getElem (by simp [hlen])
      intro k h1 h2
      simp [List.getD_eq_getElem?_getD, h2]
    rw [e] at h
    rw [h]; ring
  · intro hs w hw
    simp only [trapezoidalWeights, List.mem_map, List.mem_range] at hw
    obtain ⟨i, hi, rfl⟩ := hw
    have h1 : (0 : K) ≤ if 0 < i then (x.getD i 0 - x.getD (i - 1) 0) / 2 else 0 := by
      split
      · rename_i h
        have := hs (i - 1) (by omega)
        rw [Nat.sub_add_cancel h] at this
        exact div_nonneg (by linarith) (by norm_num)
      · exact le_rfl
    have h2 : (0 : K) ≤ if i < x.length - 1 then (x.getD (i + 1) 0 - x.getD i 0) / 2 else 0 := by
      split
      · rename_i h
        have := hs i (by omega)
        exact div_nonneg (by linarith) (by norm_num)
      · exact le_rfl
    exact add_nonneg h1 h2

example : trapezoidalWeights [(0 : ℚ), 1, 3] = [1 / 2, 3 / 2, 1] := by decide +kernel

end trapezoid

/-! ## Lumped areas -/

section lumped
variable {K : Type*} [Field K]

theorem nodeToLocal_eq (nodeIds : List ℕ) (hnd : nodeIds.Nodup) (nid i : ℕ) :
    nodeToLocal nodeIds nid = some i ↔ i < nodeIds.length ∧ nodeIds.getD i 0 = nid := by
  unfold nodeToLocal
  have key : ∀ (l : List ℕ) (k : ℕ) (acc : Option ℕ), l.Nodup →
      ((l.zipIdx k).foldl (fun found e => if e.1 = nid then some e.2 else found) acc = some i ↔
        ((k ≤ i ∧ i < k + l.length ∧ l.getD (i - k) 0 = nid) ∨ (nid ∉ l ∧ acc = some i))) := by
    intro l
    induction l with
    | nil => intro k acc _; simp; omega
    | cons a l ih =>
      intro k acc hl
      rw [List.nodup_cons] at hl
      rw [List.zipIdx_cons, List.foldl_cons, ih (k + 1) _ hl.2]
      by_cases ha : a = nid
      · rw [if_pos ha]
        subst ha
        constructor
        · rintro (⟨h1, h2, h3⟩ | ⟨h1, h2⟩)
          · exfalso
            apply hl.1
            rw [← h3, List.getD_eq_getElem _ _ (by omega)]
            exact List.getElem_mem _
          · left; cases h2; simp
        · rintro (⟨h1, h2, h3⟩ | ⟨h1, _⟩)
          · right
            refine ⟨hl.1, ?_⟩
            rcases Nat.eq_or_lt_of_le h1 with h | h
            · rw [h]
            · exfalso
              obtain ⟨m, hm⟩ : ∃ m, i - k = m + 1 := ⟨i - k - 1, by omega⟩
              rw [hm, List.getD_cons_succ] at h3
              apply hl.1
              rw [← h3, List.getD_eq_getElem _ _ (by simp at h2; omega)]
              exact List.getElem_mem _
          · simp at h1
      · rw [if_neg ha]
        constructor
        · rintro (⟨h1, h2, h3⟩ | ⟨h1, h2⟩)
          · left
            refine ⟨by omega, by simp; omega, ?_⟩
            rw [show i - k = (i - (k + 1)) + 1 by omega, List.getD_cons_succ]; exact h3
          · right; exact ⟨by simp [h1]; exact fun h => ha h.symm, h2⟩
        · rintro (⟨h1, h2, h3⟩ | ⟨h1, h2⟩)
          · left
            rcases Nat.eq_or_lt_of_le h1 with h | h
            · rw [← h] at h3; simp at h3; exact absurd h3 ha
            · refine ⟨by omega, by simp at h2; omega, ?_⟩
              rw [show i - k = (i - (k + 1)) + 1 by omega, List.getD_cons_succ] at h3; exact h3
          · right; exact ⟨fun h => h1 (List.mem_cons_of_mem _ h), h2⟩
  have := key nodeIds 0 none hnd
  rw [this]
  simp

/-- The weight of each listed node is a quarter of the area of every quad it belongs to (counted with multiplicity). -/
theorem C88_lumped_weight (norm : List K → K) (nodeIds : List ℕ) (hnd : nodeIds.Nodup) (coords : List (List K))
    (quads : List (List ℕ)) (i : ℕ) (hi : i < nodeIds.length) :
    (lumpedAreaWeights norm nodeIds coords quads).length = nodeIds.length
      ∧ (lumpedAreaWeights norm nodeIds coords quads).getD i 0
        = (quads.map fun q => (q.count (nodeIds.getD i 0) : K) * (quadArea norm coords q / 4)).sum := by
  have inner : ∀ (area : K) (quad : List ℕ) (w : List K), w.length = nodeIds.length →
      (quad.foldl (fun w nid => match nodeToLocal nodeIds nid with
        | some idx => w.set idx (w.getD idx 0 + area / 4)
        | none => w) w).length = nodeIds.length
      ∧ (quad.foldl (fun w nid => match nodeToLocal nodeIds nid with
        | some idx => w.set idx (w.getD idx 0 + area / 4)
        | none => w) w).getD i 0 = w.getD i 0 + (quad.count (nodeIds.getD i 0) : K) * (area / 4) := by
    intro area quad
    induction quad with
    | nil => intro w hw; simp [hw]
    | cons a quad ih =>
      intro w hw
      rw [List.foldl_cons]
      rw [List.count_cons]
      cases hloc : nodeToLocal nodeIds a with
      | none =>
        dsimp only
        have hne : ¬ (a = nodeIds.getD i 0) := by
          intro h
          have := (nodeToLocal_eq nodeIds hnd a i).mpr ⟨hi, h.symm⟩
          rw [hloc] at this; cases this
        have := ih w hw
        rw [this.2]
        refine ⟨this.1, ?_⟩
        rw [if_neg (by simpa using hne)]
        simp
      | some idx =>
        dsimp only
        have hidx := (nodeToLocal_eq nodeIds hnd a idx).mp hloc
        have := ih (w.set idx (w.getD idx 0 + area / 4)) (by simp [hw])
        rw [this.2]
        refine ⟨this.1, ?_⟩
        by_cases h : idx = i
        · subst h
          have e : (w.set idx (w.getD idx 0 + area / 4)).getD idx 0 = w.getD idx 0 + area / 4 := by
            rw [List.getD_eq_getElem _ _ (by rw [List.length_set, hw]; exact hi), List.getElem_set_self]
          rw [e, if_pos (by rw [hidx.2]; exact beq_self_eq_true a)]
          push_cast; ring
        · have e : (w.set idx (w.getD idx 0 + area / 4)).getD i 0 = w.getD i 0 := by
            simp [List.getD_eq_getElem?_getD, List.getElem?_set_ne h]
          have hne : ¬ (a = nodeIds.getD i 0) := by
            intro h'
            have := (nodeToLocal_eq nodeIds hnd a i).mpr ⟨hi, h'.symm⟩
            rw [hloc] at this; cases this; exact h rfl
          rw [e, if_neg (by simpa using hne)]
          simp
  have outer : ∀ (qs : List (List ℕ)) (w : List K), w.length = nodeIds.length →
      (qs.foldl (fun w quad =>
        let area := quadArea norm coords quad
        quad.foldl (fun w nid => match nodeToLocal nodeIds nid with
          | some idx => w.set idx (w.getD idx 0 + area / 4)
          | none => w) w) w).length = nodeIds.length
      ∧ (qs.foldl (fun w quad =>
        let area := quadArea norm coords quad
        quad.foldl (fun w nid => match nodeToLocal nodeIds nid with
          | some idx => w.set idx (w.getD idx 0 + area / 4)
          | none => w) w) w).getD i 0
        = w.getD i 0 + (qs.map fun q => (q.count (nodeIds.getD i 0) : K) * (quadArea norm coords q / 4)).sum := by
    intro qs
    induction qs with
    | nil => intro w hw; simp [hw]
    | cons q qs ih =>
      intro w hw
      rw [List.foldl_cons]
      have h1 := inner (quadArea norm coords q) q w hw
      have h2 := ih _ h1.1
      refine ⟨h2.1, ?_⟩
      rw [h2.2, h1.2, List.map_cons, List.sum_cons, add_assoc]
  have := outer quads (List.replicate nodeIds.length 0) (by simp)
  refine ⟨this.1, ?_⟩
  refine this.2.trans ?_
  rw [List.getD_eq_getElem _ _ (by rw [List.length_replicate]; exact hi), List.getElem_replicate, zero_add]

/-- If every node of every quad is listed, the weights add up to the total area. -/
theorem C88_lumped_total [CharZero K] (norm : List K → K) (nodeIds : List ℕ) (hnd : nodeIds.Nodup) (coords : List (List K))
    (quads : List (List ℕ)) (hq : ∀ q ∈ quads, q.length = 4 ∧ ∀ n ∈ q, n ∈ nodeIds) :
    (lumpedAreaWeights norm nodeIds coords quads).sum = (quads.map (quadArea norm coords)).sum := by
  have hlen : (lumpedAreaWeights norm nodeIds coords quads).length = nodeIds.length := by
    rcases Nat.eq_zero_or_pos nodeIds.length with h0 | h0
    · have hnil : nodeIds = [] := List.length_eq_zero_iff.mp h0
      have : quads = [] := by
        rcases quads with _ | ⟨q, qs⟩
        · rfl
        · have := hq q (by simp)
          rcases q with _ | ⟨n, q⟩
          · simp at this
          · have := this.2 n (by simp); rw [hnil] at this; simp at this
      subst this; simp [lumpedAreaWeights]
    · exact (C88_lumped_weight norm nodeIds hnd coords quads 0 h0).1
  have hform : lumpedAreaWeights norm nodeIds coords quads
      = nodeIds.map fun n => (quads.map fun q => (q.count n : K) * (quadArea norm coords q / 4)).sum := by
    apply List.ext_getElem (by simp [hlen])
    intro k h1 h2
    have hk : k < nodeIds.length := by omega
    have := (C88_lumped_weight norm nodeIds hnd coords quads k hk).2
    rw [List.getD_eq_getElem _ _ h1, List.getD_eq_getElem _ _ hk] at this
    rw [this, List.getElem_map]
  rw [hform]
  clear hform hlen
  induction quads with
  | nil => simp
  | cons q qs ih =>
    have hih := ih (fun q' h => hq q' (List.mem_cons_of_mem _ h))
    simp only [List.map_cons, List.sum_cons]
    rw [List.sum_map_add, hih]
    congr 1
    rw [List.sum_map_mul_right]
    have hcount : (nodeIds.map fun n => (q.count n : K)).sum = 4 := by
      have hsum : (nodeIds.map fun n => q.count n).sum = q.length := by
        have hall := (hq q (by simp)).2
        clear hih ih hq
        induction q with
        | nil => simp
        | cons a q ihq =>
          have := ihq (fun n hn => hall n (List.mem_cons_of_mem _ hn))
          have hc : (nodeIds.map fun n => (a :: q).count n) = nodeIds.map fun n => q.count n + if a == n then 1 else 0 := by
            apply List.map_congr_left; intro n _; rw [List.count_cons]
          rw [hc, List.sum_map_add, this, List.length_cons]
          congr 1
          have ha : a ∈ nodeIds := hall a (by simp)
          have : (nodeIds.map fun n => if a == n then 1 else 0).sum = nodeIds.count a := by
            rw [List.count, List.countP_eq_length_filter]
            clear ha hall this hc ihq
            induction nodeIds with
            | nil => rfl
            | cons b l ihl =>
              have := ihl (List.nodup_cons.mp hnd).2
              rw [List.map_cons, List.sum_cons, this, List.filter_cons]
              by_cases h : a = b
              · subst h; simp; omega
              · have h' : ¬ b = a := fun e => h e.symm
                simp [h, h']
          rw [this, List.count_eq_one_of_mem hnd ha]
      have := congrArg (Nat.cast (R := K)) hsum
      rw [(hq q (by simp)).1] at this
      have e : ((nodeIds.map fun n => q.count n).sum : K) = (nodeIds.map fun n => (q.count n : K)).sum := by
        rw [Nat.cast_list_sum, List.map_map]; rfl
      rw [← e, this]; norm_num
    rw [hcount]
    have : (4 : K) ≠ 0 := by norm_num
    field_simp

/-- For a quad in a plane `z = const` the area used is the polygon (shoelace) area. -/
theorem C88_quad_area (coords : List (List ℝ)) (n0 n1 n2 n3 : ℕ) (x0 y0 x1 y1 x2 y2 x3 y3 z : ℝ)
    (h0 : coords.getD n0 [] = [x0, y0, z]) (h1 : coords.getD n1 [] = [x1, y1, z]) (h2 : coords.getD n2 [] = [x2, y2, z])
    (h3 : coords.getD n3 [] = [x3, y3, z]) :
    quadArea (fun v => Real.sqrt ((v.map fun t => t ^ 2).sum)) coords [n0, n1, n2, n3]
      = |((x0 * y1 - x1 * y0) + (x1 * y2 - x2 * y1) + (x2 * y3 - x3 * y2) + (x3 * y0 - x0 * y3)) / 2| := by
  simp only [quadArea, List.map_cons, List.map_nil, List.getD_cons_zero, List.getD_cons_succ, h0, h1, h2, h3, List.zipWith_cons_cons,
    List.zipWith_nil_left, cross3, List.sum_cons, List.sum_nil, sub_self]
  have : ∀ s : ℝ, Real.sqrt (((y2 - y0) * 0 - 0 * (y3 - y1)) ^ 2 + ((0 * (x3 - x1) - (x2 - x0) * 0) ^ 2 + (s ^ 2 + 0))) = |s| := by
    intro s
    rw [← Real.sqrt_sq_eq_abs]; congr 1; ring
  rw [this, abs_div, abs_of_pos (show (0 : ℝ) < 2 by norm_num)]
  rw [show (x2 - x0) * (y3 - y1) - (y2 - y0) * (x3 - x1)
    = (x0 * y1 - x1 * y0) + (x1 * y2 - x2 * y1) + (x2 * y3 - x3 * y2) + (x3 * y0 - x0 * y3) by ring]
  ring

example : (lumpedAreaWeights (fun v : List ℚ => v.getD 2 0) [0, 1, 2, 3] [[0, 0, 0], [2, 0, 0], [2, 1, 0], [0, 1, 0]] [[0, 1, 2, 3]])
    = [1 / 2, 1 / 2, 1 / 2, 1 / 2] := by decide +kernel

end lumped

end Verif.Props
