import Verif.Model.Detect
import Verif.Props.Assembly
import Verif.Props.Csr
import Verif.Props.Band
import Mathlib.Algebra.Order.Field.Rat
import Mathlib.Tactic.Positivity
import Mathlib.Tactic.FieldSimp

/-!
# C69, C70: what `create_solver` finds out by probing
-/

namespace Verif.Props
open Verif.Model

/-! ### C69: dead surface loads -/

section
variable {K : Type} [Field K] [DecidableEq K] {α β : Type*}

theorem computeFace_eq {R : Type*} [AddCommMonoid R] {γ : Type*} (kf : ℕ → γ → Local R) (zf : γ) (faces : List (List γ))
    {batch : ℕ} (hb : 0 < batch) : computeFace kf zf faces batch = faces.zipIdx.map fun q => q.1.map (kf q.2) := by
  unfold computeFace
  apply List.map_congr_left
  intro q _
  exact scanVmapBatched_eq _ _ _ hb

/-- **C69, partial.** If the tangent of each surface load is the same whatever the load parameters and the state (in particular
if it is zero: dead loads), then the probe decides rightly: with the flag it sets, every later assembly, for any parameters and
any state, gives the tangent. Missing: loads whose tangent depends on the parameters or on the state; see below. -/
theorem C69_constant_tangent_partial (d d' : Discretization K α β) (hb : 0 < d'.batch) (hbd : 0 < d.batch)
    (hp : d'.p = d.p) (hk : d'.kf = d.kf) (hl : d'.facesIn.length = d.facesIn.length)
    (hind : ∀ (k : ℕ) (x y : β × List K), (d.kf k x).jac = (d.kf k y).jac) (sol : List K) :
    flaggedJacobian (detectZeroSurface d) d' sol = d'.jacobianAt sol := by
  cases hdet : detectZeroSurface d with
  | false => rfl
  | true =>
    refine C01_dead_load_flag_sound (hb := hb) (hz := ?_) ..
    rintro ⟨fs, k⟩ hq x hx y hy
    unfold detectZeroSurface at hdet
    split_ifs at hdet with he
    have h1 := List.all_eq_true.1 hdet (linspace (13 / 100) 1 d.p.n) (by simp [surfaceProbes])
    rw [computeFace_eq _ _ _ hbd] at h1
    have hklen : k < (faceItems d.p d.facesIn (linspace (13 / 100 : K) 1 d.p.n)).length := by
      have := (List.mem_zipIdx hq).2.1
      unfold faceItems at this ⊢
      rw [List.length_zipWith] at this ⊢
      rw [hl, hp] at this
      omega
    have h2 := List.all_eq_true.1 h1 _ (List.mem_map.2
      ⟨((faceItems d.p d.facesIn (linspace (13 / 100 : K) 1 d.p.n))[k], k), by
        rw [List.mem_zipIdx_iff_getElem?]
        exact List.getElem?_eq_getElem hklen, rfl⟩)
    simp only [Bool.and_eq_true, Bool.not_eq_true', List.isEmpty_eq_false_iff, List.all_eq_true, decide_eq_true_eq] at h2
    obtain ⟨h3, h4⟩ := h2
    obtain ⟨z, hz⟩ := List.exists_mem_of_ne_nil _ h3
    obtain ⟨l, hl1, -⟩ := List.mem_flatten.1 hz
    rw [List.map_map] at hl1
    obtain ⟨x', hx', rfl⟩ := List.mem_map.1 hl1
    refine h4 y ?_
    rw [List.map_map]
    refine List.mem_flatten.2 ⟨_, List.mem_map.2 ⟨x', hx', rfl⟩, ?_⟩
    simp only [Function.comp]
    rw [hk] at hy
    rw [hind k x' x]
    exact hy

/-- C69: when the flag is set, leaving the surface tangent out is right at both of the displacement patterns that were probed:
from 0.13 to 1 and from -0.9 to 0.41 over the DOFs. -/
theorem C69_exact_at_probes (d : Discretization K α β) (hb : 0 < d.batch) (hdet : detectZeroSurface d = true) (sol : List K)
    (hsol : sol = linspace (13 / 100) 1 d.p.n ∨ sol = linspace (-9 / 10) (41 / 100) d.p.n) :
    flaggedJacobian true d sol = d.jacobianAt sol := by
  refine C01_dead_load_flag_sound (hb := hb) (hz := ?_) ..
  rintro ⟨fs, k⟩ hq x hx y hy
  unfold detectZeroSurface at hdet
  split_ifs at hdet with he
  have h1 := List.all_eq_true.1 hdet sol (by rcases hsol with rfl | rfl <;> simp [surfaceProbes])
  rw [computeFace_eq _ _ _ hb] at h1
  have h2 := List.all_eq_true.1 h1 _ (List.mem_map.2 ⟨(fs, k), hq, rfl⟩)
  simp only [Bool.and_eq_true, Bool.not_eq_true', List.isEmpty_eq_false_iff, List.all_eq_true, decide_eq_true_eq] at h2
  refine h2.2 y ?_
  rw [List.map_map]
  exact List.mem_flatten.2 ⟨_, List.mem_map.2 ⟨x, hx, rfl⟩, hy⟩

end

/-- A bar of two elements with an elastic support at its end; the stiffness of the support is the load parameter. -/
def exRobin (h : ℚ) : Discretization ℚ ℚ ℚ where
  p := exP
  kv := fun q => ⟨[q.1 * (q.2.getD 0 0 - q.2.getD 1 0), q.1 * (q.2.getD 1 0 - q.2.getD 0 0)], [q.1, -q.1, -q.1, q.1]⟩
  kf := fun _ q => ⟨[0, q.1 * q.2.getD 1 0], [0, 0, 0, q.1]⟩
  zv := 0
  zf := 0
  cellsIn := [1, 1]
  facesIn := [[h]]
  batch := 2

/-- The same bar with a stop at distance 2: no force below, stiff above. -/
def exStop : Discretization ℚ ℚ ℚ :=
  { exRobin 0 with
    kf := fun _ q => ⟨[0, if 2 < q.2.getD 1 0 then q.1 * (q.2.getD 1 0 - 2) else 0],
      [0, 0, 0, if 2 < q.2.getD 1 0 then q.1 else 0]⟩
    facesIn := [[100]] }

/-- A constant load and a spring of fixed stiffness meet the hypotheses of `C69_constant_tangent_partial`; the first is
recognised as dead, the second is not. -/
example : detectZeroSurface { exRobin 3 with kf := fun _ q => ⟨[0, q.1], [0, 0, 0, 0]⟩ } = true ∧
    detectZeroSurface { exRobin 3 with kf := fun _ q => ⟨[0, 5 * q.2.getD 1 0], [0, 0, 0, 5]⟩ } = false := by
  decide +kernel

/-- **C69 fails.** If the sample parameters given to `create_solver` have a zero support stiffness, the surface term is taken for
dead, and is then missing from the matrix of every later solve with a nonzero stiffness. -/
theorem C69_zero_sample_parameter :
    detectZeroSurface (exRobin 0) = true ∧
      (flaggedJacobian (detectZeroSurface (exRobin 0)) (exRobin 7) [0, 0, 0]).data
        ≠ ((exRobin 7).jacobianAt [0, 0, 0]).data := by
  decide +kernel

/-- **C69 fails.** A stop that is not reached by the two probing patterns (all displacements at most 1) is taken for a dead load,
and its stiffness is missing where it is reached. -/
theorem C69_stop_taken_for_dead :
    detectZeroSurface exStop = true ∧
      (flaggedJacobian (detectZeroSurface exStop) exStop [0, 1, 3]).data ≠ (exStop.jacobianAt [0, 1, 3]).data := by
  decide +kernel

/-! ### C70: the property of the matrix -/

section
variable {K : Type} [Field K] [LinearOrder K] [IsStrictOrderedRing K]

/-- Specification: a symmetric square matrix. -/
def SymmetricMatrix (A : CSRMatrix K) : Prop := ∀ i j, A.todense i j = A.todense j i

/-- Specification: the quadratic form is positive. -/
def PositiveForm (A : CSRMatrix K) : Prop :=
  ∀ v : ℕ → K, (∃ i < A.numRows, v i ≠ 0) →
    0 < ∑ i ∈ Finset.range A.numRows, ∑ j ∈ Finset.range A.numCols, v i * A.todense i j * v j

variable (norm : List K → K) (x : List K) (tol eps : K)

theorem matvec_eq_rmatvec {A : CSRMatrix K} (hA : WellFormed A) (hsq : A.numCols = A.numRows) (hs : SymmetricMatrix A) :
    A.matvec x = A.rmatvec x := by
  apply list_ext_getD (0 : K)
  · simp [CSRMatrix.matvec, CSRMatrix.rmatvec, hsq]
  · intro k hk
    have hk' : k < A.numRows := by simpa [CSRMatrix.matvec] using hk
    rw [C06_matvec A hA x k hk', C06_rmatvec A hA x k (by omega), hsq]
    apply Finset.sum_congr rfl
    intro j _
    rw [hs k j]

theorem zipWith_sub_self (l : List K) : List.zipWith (· - ·) l l = List.replicate l.length 0 := by
  induction l with
  | nil => rfl
  | cons a l ih => simp [ih, List.replicate_succ]

theorem probe_of_eq {A : CSRMatrix K} (h : A.matvec x = A.rmatvec x) (hn : ∀ n, norm (List.replicate n 0) = 0)
    (ht : 0 < tol) : probeSymmetric norm x tol eps A .full = true := by
  unfold probeSymmetric
  rw [decide_eq_true_eq, h, zipWith_sub_self, hn, zero_div]
  exact ht

/-- **C70.** A symmetric matrix is never taken for general, whatever the probing vector and storage. -/
theorem C70_symmetric_never_general (A : CSRMatrix K) (view : MatrixView) (hA : WellFormed A) (hsq : A.numCols = A.numRows)
    (hs : SymmetricMatrix A) (hn : ∀ n, norm (List.replicate n 0) = 0) (ht : 0 < tol) :
    detectProperty norm x tol eps A view ≠ .general := by
  have h : probeSymmetric norm x tol eps A view = true := by
    cases view with
    | full => exact probe_of_eq norm x tol eps (matvec_eq_rmatvec x hA hsq hs) hn ht
    | upper => rfl
    | lower => rfl
  unfold detectProperty
  rw [h]
  simp only [Bool.not_true, Bool.false_eq_true, if_false]
  split_ifs <;> simp

/-- **C70.** Every symmetric positive definite matrix is recognised as such. -/
theorem C70_spd_recognised (A : CSRMatrix K) (hA : WellFormed A) (hsq : A.numCols = A.numRows)
    (hs : SymmetricMatrix A) (hpos : PositiveForm A) (hn : ∀ n, norm (List.replicate n 0) = 0) (ht : 0 < tol) :
    detectProperty norm x tol eps A .full = .spd := by
  have hd : (A.diagonal.all fun y : K => decide (0 < y)) = true := by
    rw [List.all_eq_true]
    intro y hy
    obtain ⟨i, hi, rfl⟩ := List.getElem_of_mem hy
    have hi' : i < A.numRows := by simpa [CSRMatrix.diagonal] using hi
    have h1 := C06_diagonal A hA hsq i hi'
    rw [List.getD_eq_getElem _ _ hi] at h1
    rw [h1, decide_eq_true_eq]
    have h2 := hpos (fun k => if k = i then 1 else 0) ⟨i, hi', by simp⟩
    rw [Finset.sum_eq_single i, Finset.sum_eq_single i] at h2
    · simpa using h2
    · intro b _ hb
      simp [hb]
    · intro hb
      exact absurd (Finset.mem_range.2 (by omega)) hb
    · intro b _ hb
      simp [hb]
    · intro hb
      exact absurd (Finset.mem_range.2 hi') hb
  unfold detectProperty
  rw [probe_of_eq norm x tol eps (matvec_eq_rmatvec x hA hsq hs) hn ht, hd]
  rfl

/-- **C70, partial.** What a verdict guarantees: SPD, a positive diagonal; SPD or symmetric for a fully stored matrix, that `A x`
and `Aᵀ x` agree up to the tolerance for the one vector `x`. Neither symmetry nor definiteness follows; see below. -/
theorem C70_verdict_partial (A : CSRMatrix K) (view : MatrixView) (hA : WellFormed A) (hsq : A.numCols = A.numRows) :
    (detectProperty norm x tol eps A view = .spd → ∀ i < A.numRows, 0 < A.todense i i) ∧
    (detectProperty norm x tol eps A view = .symmetric → ∃ i < A.numRows, A.todense i i ≤ 0) ∧
    (view = .full → detectProperty norm x tol eps A view ≠ .general →
      norm (List.zipWith (· - ·) (A.matvec x) (A.rmatvec x)) / (norm (A.matvec x) + eps) < tol) := by
  have hdi : ∀ i (hi : i < A.diagonal.length), A.diagonal[i] = A.todense i i := by
    intro i hi
    have hi' : i < A.numRows := by simpa [CSRMatrix.diagonal] using hi
    have h1 := C06_diagonal A hA hsq i hi'
    rwa [List.getD_eq_getElem _ _ hi] at h1
  have hlen : A.diagonal.length = A.numRows := by simp [CSRMatrix.diagonal]
  refine ⟨?_, ?_, ?_⟩
  · intro h i hi
    unfold detectProperty at h
    split_ifs at h with h1 h2
    have := List.all_eq_true.1 h2 A.diagonal[i] (List.getElem_mem (by omega))
    rw [hdi i (by omega)] at this
    exact of_decide_eq_true this
  · intro h
    unfold detectProperty at h
    split_ifs at h with h1 h2
    rw [List.all_eq_true] at h2
    push Not at h2
    obtain ⟨y, hy, hy2⟩ := h2
    obtain ⟨i, hi, rfl⟩ := List.getElem_of_mem hy
    refine ⟨i, by omega, ?_⟩
    rw [← hdi i hi]
    simpa using hy2
  · rintro rfl h
    by_contra hc
    have h0 : probeSymmetric norm x tol eps A .full = false := decide_eq_false hc
    unfold detectProperty at h
    rw [h0] at h
    exact h rfl

/-- **C70 fails.** `[[1,2],[2,1]]` is symmetric and indefinite, and is taken for SPD (so that Cholesky or conjugate gradients are
chosen), whatever norm, probing vector and tolerance. -/
theorem C70_indefinite_taken_for_spd (hn : ∀ n, norm (List.replicate n 0) = 0) (ht : 0 < tol) :
    let A : CSRMatrix K := ⟨[1, 2, 2, 1], [0, 2, 4], [0, 1, 0, 1], 2, 2⟩
    detectProperty norm x tol eps A .full = .spd ∧ ¬ PositiveForm A := by
  intro A
  have hv : A.matvec x = A.rmatvec x := by
    simp [A, CSRMatrix.matvec, CSRMatrix.rmatvec, segmentSum, CSRMatrix.rowOfSlot, repeatByPtr, gather, segSumAt,
      List.range_succ]
  have hd : A.diagonal = [1, 1] := by
    simp [A, CSRMatrix.diagonal, segmentSum, CSRMatrix.rowOfSlot, repeatByPtr, segSumAt, List.range_succ]
  constructor
  · unfold detectProperty
    rw [probe_of_eq norm x tol eps hv hn ht, hd]
    simp
  · intro h
    have := h (fun i => if i = 0 then 1 else -1) ⟨0, by simp [A], by simp⟩
    simp [A, CSRMatrix.todense, CSRMatrix.rowOfSlot, repeatByPtr, Finset.sum_range_succ, List.range_succ] at this
    linarith

/-- **C70 fails.** Whatever the fixed probing vector, some matrix that is far from symmetric is taken for SPD: identity plus the
cross product with the probing vector. -/
theorem C70_nonsymmetric_taken_for_spd (a b c : K) (hc : c ≠ 0) (hn : ∀ n, norm (List.replicate n 0) = 0) (ht : 0 < tol) :
    let A : CSRMatrix K := ⟨[1, -c, b, c, 1, -a, -b, a, 1], [0, 3, 6, 9], [0, 1, 2, 0, 1, 2, 0, 1, 2], 3, 3⟩
    detectProperty norm [a, b, c] tol eps A .full = .spd ∧ ¬ SymmetricMatrix A := by
  intro A
  have h1 : A.matvec [a, b, c] = [a, b, c] := by
    simp [A, CSRMatrix.matvec, segmentSum, CSRMatrix.rowOfSlot, repeatByPtr, gather, segSumAt, List.range_succ]
    refine ⟨?_, ?_, ?_⟩ <;> ring
  have h2 : A.rmatvec [a, b, c] = [a, b, c] := by
    simp [A, CSRMatrix.rmatvec, segmentSum, CSRMatrix.rowOfSlot, repeatByPtr, gather, segSumAt, List.range_succ]
    refine ⟨?_, ?_, ?_⟩ <;> ring
  have hd : A.diagonal = [1, 1, 1] := by
    simp [A, CSRMatrix.diagonal, segmentSum, CSRMatrix.rowOfSlot, repeatByPtr, segSumAt, List.range_succ]
  constructor
  · unfold detectProperty
    rw [probe_of_eq norm _ tol eps (h1.trans h2.symm) hn ht, hd]
    simp
  · intro h
    have := h 0 1
    simp [A, CSRMatrix.todense, CSRMatrix.rowOfSlot, repeatByPtr, List.range_succ] at this
    exact hc (by linarith)

end

/-- `[[2,1],[1,2]]` meets the hypotheses of `C70_spd_recognised`. -/
example :
    let A : CSRMatrix ℚ := ⟨[2, 1, 1, 2], [0, 2, 4], [0, 1, 0, 1], 2, 2⟩
    WellFormed A ∧ SymmetricMatrix A ∧ PositiveForm A := by
  intro A
  refine ⟨⟨⟨by decide, by decide, by decide, by decide, by decide, ?_⟩, by decide⟩, ?_, ?_⟩
  · intro r hr s t h1 h2 h3
    have hr' : r = 0 ∨ r = 1 := by simp only [A] at hr; omega
    rcases hr' with rfl | rfl
    · have h4 : t < 2 := h3
      have : s = 0 ∧ t = 1 := by omega
      obtain ⟨rfl, rfl⟩ := this; decide
    · have h4 : 2 ≤ s := h1
      have h5 : t < 4 := h3
      have : s = 2 ∧ t = 3 := by omega
      obtain ⟨rfl, rfl⟩ := this; decide
  · intro i j
    rcases i with _ | _ | i <;> rcases j with _ | _ | j <;>
      simp [A, CSRMatrix.todense, CSRMatrix.rowOfSlot, repeatByPtr, List.range_succ]
  · rintro v ⟨i, hi, hv⟩
    have h : 0 < v 0 ^ 2 + v 1 ^ 2 + (v 0 + v 1) ^ 2 := by
      have hi' : i < 2 := hi
      interval_cases i
      · have := pow_pos (abs_pos.2 hv) 2
        rw [sq_abs] at this
        positivity
      · have := pow_pos (abs_pos.2 hv) 2
        rw [sq_abs] at this
        positivity
    simp [A, CSRMatrix.todense, CSRMatrix.rowOfSlot, repeatByPtr, Finset.sum_range_succ, List.range_succ]
    nlinarith

/-- A well-formed SPD matrix, a symmetric indefinite one and a general one get the three verdicts (sum of absolute values as
norm). -/
example :
    let nrm : List ℚ → ℚ := fun l => (l.map fun y : ℚ => |y|).sum
    detectProperty nrm [1, 3] (1 / 100) (1 / 1000) ⟨[2, 1, 1, 2], [0, 2, 4], [0, 1, 0, 1], 2, 2⟩ .full = .spd ∧
    detectProperty nrm [1, 3] (1 / 100) (1 / 1000) ⟨[2, 1, 1, -2], [0, 2, 4], [0, 1, 0, 1], 2, 2⟩ .full = .symmetric ∧
    detectProperty nrm [1, 3] (1 / 100) (1 / 1000) ⟨[2, 1, 0, 2], [0, 2, 4], [0, 1, 0, 1], 2, 2⟩ .full = .general := by
  decide +kernel

end Verif.Props
