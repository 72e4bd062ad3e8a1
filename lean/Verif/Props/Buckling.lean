import Verif.Model.Buckling
import Verif.Props.Band
import Verif.Props.Csr
import Mathlib.Analysis.Matrix.Spectrum
import Mathlib.Analysis.Matrix.PosDef
import Mathlib.LinearAlgebra.Matrix.PosDef
import Mathlib.Data.Fin.Tuple.Sort
import Mathlib.Analysis.Calculus.Deriv.Slope
import Mathlib.Analysis.Calculus.Deriv.Add

/-!
# Linear buckling: factors, modes, sensitivities
-/

namespace Verif.Props
open Verif.Model Verif.Model.Buckling Matrix

section
variable {n : ℕ}

/-- Symmetric positive definite. -/
def Spd (B : Matrix (Fin n) (Fin n) ℝ) : Prop := Bᵀ = B ∧ ∀ x : Fin n → ℝ, x ≠ 0 → 0 < x ⬝ᵥ (B *ᵥ x)

/-- What is assumed of the library routines: Cholesky factorises the symmetric positive definite
matrices and no other, `eigh` diagonalises symmetric matrices with ascending eigenvalues, `argsort`
lists all positions in an order that makes the keys ascend. -/
structure EigSpec (ops : EigOps) : Prop where
  chol_spd : ∀ {n : ℕ} (B : Matrix (Fin n) (Fin n) ℝ), Spd B → ∃ L, ops.chol B = some L ∧ L * Lᵀ = B
  chol_fail : ∀ {n : ℕ} (B : Matrix (Fin n) (Fin n) ℝ), ¬ Spd B → ops.chol B = none
  eigh : ∀ {n : ℕ} (C : Matrix (Fin n) (Fin n) ℝ), Cᵀ = C →
    (ops.eigh C).2ᵀ * (ops.eigh C).2 = 1 ∧ C * (ops.eigh C).2 = (ops.eigh C).2 * diagonal (ops.eigh C).1 ∧
      Monotone (ops.eigh C).1
  argsort : ∀ {n : ℕ} (key : Fin n → WithTop ℝ), (ops.argsort key).Perm (List.finRange n) ∧
    (ops.argsort key).Pairwise (fun i j => key i ≤ key j)

theorem half_sym {B : Matrix (Fin n) (Fin n) ℝ} (h : Bᵀ = B) : (1 / 2 : ℝ) • (B + Bᵀ) = B := by
  rw [h]; ext i j; simp; ring

theorem spd_factor_inv {B L : Matrix (Fin n) (Fin n) ℝ} (hB : Spd B) (hL : L * Lᵀ = B) : IsUnit L.det := by
  rw [isUnit_iff_ne_zero]
  intro h0
  have h0' : Lᵀ.det = 0 := by rw [det_transpose]; exact h0
  obtain ⟨v, hv, hv0⟩ := Matrix.exists_mulVec_eq_zero_iff.2 h0'
  have h := hB.2 v hv
  rw [← hL, ← mulVec_mulVec, hv0] at h
  simp at h

/-- **C104.** `generalized_eigh(A, B)` for symmetric `A` and symmetric positive definite `B` solves the
pencil completely: the columns are `B`-orthonormal, each is an eigenvector with its value, the values
ascend, and no eigenvalue of the pencil is missing. -/
theorem C104_generalized_eigh {ops : EigOps} (hops : EigSpec ops) {A B : Matrix (Fin n) (Fin n) ℝ}
    (hA : Aᵀ = A) (hB : Spd B) :
    ∃ w X, generalizedEigh ops A B = some (w, X) ∧ Xᵀ * B * X = 1 ∧ A * X = B * X * diagonal w ∧ Monotone w ∧
      ∀ (μ : ℝ) (x : Fin n → ℝ), x ≠ 0 → A *ᵥ x = μ • (B *ᵥ x) → ∃ i, w i = μ := by
  obtain ⟨L, hc, hL⟩ := hops.chol_spd B hB
  have hu := spd_factor_inv hB hL
  have huT : IsUnit (Lᵀ).det := by rw [det_transpose]; exact hu
  have h1 : L⁻¹ * L = 1 := nonsing_inv_mul _ hu
  have h2 : L * L⁻¹ = 1 := mul_nonsing_inv _ hu
  have h3 : Lᵀ * (Lᵀ)⁻¹ = 1 := mul_nonsing_inv _ huT
  set C := (L⁻¹ * (L⁻¹ * A)ᵀ)ᵀ with hC
  have hC' : C = L⁻¹ * A * (Lᵀ)⁻¹ := by
    rw [hC, transpose_mul, transpose_transpose, transpose_nonsing_inv]
  have hCs : Cᵀ = C := by
    rw [hC', transpose_mul, transpose_mul, transpose_nonsing_inv, transpose_nonsing_inv, transpose_transpose, hA,
      Matrix.mul_assoc]
  obtain ⟨hU, hE, hmono⟩ := hops.eigh C hCs
  set U := (ops.eigh C).2
  set w := (ops.eigh C).1
  have hX : generalizedEigh ops A B = some (w, (Lᵀ)⁻¹ * U) := by
    unfold generalizedEigh
    simp only [half_sym hA, half_sym hB.1, hc]
    rw [show (L⁻¹ * (L⁻¹ * A)ᵀ)ᵀ = C from rfl, half_sym hCs]
  have hAX : A * ((Lᵀ)⁻¹ * U) = B * ((Lᵀ)⁻¹ * U) * diagonal w := by
    have e1 : L * C = A * (Lᵀ)⁻¹ := by
      rw [hC', ← Matrix.mul_assoc, ← Matrix.mul_assoc, h2, Matrix.one_mul]
    calc A * ((Lᵀ)⁻¹ * U) = L * C * U := by rw [e1, Matrix.mul_assoc]
      _ = L * (U * diagonal w) := by rw [Matrix.mul_assoc, hE]
      _ = L * (Lᵀ * (Lᵀ)⁻¹) * (U * diagonal w) := by rw [h3, Matrix.mul_one]
      _ = _ := by rw [← hL]; simp only [Matrix.mul_assoc]
  have hXB : ((Lᵀ)⁻¹ * U)ᵀ * B * ((Lᵀ)⁻¹ * U) = 1 := by
    rw [transpose_mul, transpose_nonsing_inv, transpose_transpose, ← hL]
    calc Uᵀ * L⁻¹ * (L * Lᵀ) * ((Lᵀ)⁻¹ * U) = Uᵀ * (L⁻¹ * L) * (Lᵀ * (Lᵀ)⁻¹) * U := by
          simp only [Matrix.mul_assoc]
      _ = 1 := by rw [h1, h3, Matrix.mul_one, Matrix.mul_one, hU]
  refine ⟨w, (Lᵀ)⁻¹ * U, hX, hXB, hAX, hmono, ?_⟩
  intro μ x hx hμ
  set X := (Lᵀ)⁻¹ * U
  have hXi : X * (Xᵀ * B) = 1 := mul_eq_one_comm.1 hXB
  set c := (Xᵀ * B) *ᵥ x with hcdef
  have hxc : x = X *ᵥ c := by rw [hcdef, mulVec_mulVec, hXi, one_mulVec]
  have hc0 : c ≠ 0 := by intro h; rw [h, mulVec_zero] at hxc; exact hx hxc
  have hk : diagonal w *ᵥ c = μ • c := by
    have e1 : Xᵀ *ᵥ (B *ᵥ x) = c := by rw [mulVec_mulVec]
    have e2 : Xᵀ *ᵥ (A *ᵥ x) = diagonal w *ᵥ c := by
      conv_lhs => rw [hxc]
      rw [mulVec_mulVec c A X, hAX, mulVec_mulVec, ← Matrix.mul_assoc, ← Matrix.mul_assoc, hXB, Matrix.one_mul]
    rw [← e2, hμ, mulVec_smul, e1]
  obtain ⟨i, hi⟩ := Function.ne_iff.1 hc0
  refine ⟨i, ?_⟩
  have := congrFun hk i
  rw [mulVec_diagonal] at this
  exact mul_right_cancel₀ hi this

/-! ## Which factors are returned -/

theorem takeFilter {ι : Type*} {key : ι → WithTop ℝ} {valid : ι → Bool} (hv : ∀ i, valid i = false ↔ key i = ⊤)
    {l : List ι} (hs : l.Pairwise (fun i j => key i ≤ key j)) (m : ℕ) :
    (l.take m).filter valid = (l.filter valid).take m := by
  induction l generalizing m with
  | nil => simp
  | cons a t ih =>
    rw [List.pairwise_cons] at hs
    cases m with
    | zero => simp
    | succ m =>
      cases hva : valid a with
      | true => simp [hva, ih hs.2]
      | false =>
        have ht : ∀ x ∈ t, valid x = false := by
          intro x hx
          rw [hv]
          have := hs.1 x hx
          rw [(hv a).1 hva] at this
          exact top_le_iff.1 this
        have e1 : (t.take m).filter valid = [] := List.filter_eq_nil_iff.2 (fun x hx => by
          simp [ht x (List.mem_of_mem_take hx)])
        have e2 : t.filter valid = [] := List.filter_eq_nil_iff.2 (fun x hx => by simp [ht x hx])
        simp [hva, e1, e2]

/-- The chosen positions: valid ones, in ascending order of key, no repetition, and a valid position
left out comes after `m` chosen ones. -/
theorem pick_spec {ι : Type*} {key : ι → WithTop ℝ} {valid : ι → Bool} {l : List ι} (hl : ∀ i, i ∈ l)
    (hn : l.Nodup) (hs : l.Pairwise (fun i j => key i ≤ key j)) (m : ℕ) :
    (∀ i ∈ (l.filter valid).take m, valid i = true) ∧ ((l.filter valid).take m).Pairwise (fun i j => key i ≤ key j) ∧
      ((l.filter valid).take m).Nodup ∧ ((l.filter valid).take m).length = min m (l.filter valid).length ∧
      ∀ i, valid i = true → i ∉ (l.filter valid).take m →
        ((l.filter valid).take m).length = m ∧ ∀ j ∈ (l.filter valid).take m, key j ≤ key i := by
  have hp : (l.filter valid).Pairwise (fun i j => key i ≤ key j) := hs.sublist List.filter_sublist
  refine ⟨fun i hi => (List.mem_filter.1 (List.mem_of_mem_take hi)).2, hp.sublist (List.take_sublist _ _),
    (hn.sublist List.filter_sublist).sublist (List.take_sublist _ _), by simp, ?_⟩
  intro i hi hni
  have hmem : i ∈ l.filter valid := List.mem_filter.2 ⟨hl i, hi⟩
  rw [← List.take_append_drop m (l.filter valid), List.mem_append] at hmem
  have hd : i ∈ (l.filter valid).drop m := hmem.resolve_left hni
  refine ⟨?_, ?_⟩
  · have : m < (l.filter valid).length := by
      by_contra h
      rw [List.drop_eq_nil_of_le (not_lt.1 h)] at hd
      simp at hd
    rw [List.length_take]; omega
  · intro j hj
    rw [← List.take_append_drop m (l.filter valid)] at hp
    exact (List.pairwise_append.1 hp).2.2 j hj i hd

/-! ## Buckling problems -/

/-- The buckling problem a user poses: `K`, `K_g` square with symmetric blocks on the free DOFs, `K`
positive definite there; the free DOFs are distinct and exist. -/
structure BucklingOk (K Kg : CSRMatrix ℝ) (free : List ℕ) : Prop where
  nodup : free.Nodup
  range : ∀ i ∈ free, i < K.numRows
  spd : Spd (restrict K free)
  sym : (restrict Kg free)ᵀ = restrict Kg free

/-- `(K + λ K_g) φ = 0` on the free rows, for a vector `φ` on the free DOFs. -/
def BucklingMode (K Kg : CSRMatrix ℝ) (free : List ℕ) (lam : ℝ) (x : Fin free.length → ℝ) : Prop :=
  ∀ i : Fin free.length, ∑ j : Fin free.length,
    (K.todense free[i] free[j] + lam * Kg.todense free[i] free[j]) * x j = 0

theorem bucklingMode_iff {K Kg : CSRMatrix ℝ} {free : List ℕ} {lam : ℝ} {x : Fin free.length → ℝ} :
    BucklingMode K Kg free lam x ↔ restrict K free *ᵥ x + lam • (restrict Kg free *ᵥ x) = 0 := by
  unfold BucklingMode
  rw [funext_iff]
  apply forall_congr'
  intro i
  have : ∑ j : Fin free.length, (K.todense free[i] free[j] + lam * Kg.todense free[i] free[j]) * x j =
      (restrict K free *ᵥ x + lam • (restrict Kg free *ᵥ x)) i := by
    simp only [Pi.add_apply, Pi.smul_apply, mulVec, dotProduct, restrict, smul_eq_mul, Finset.mul_sum]
    rw [← Finset.sum_add_distrib]
    exact Finset.sum_congr rfl (fun j _ => by ring)
  rw [this]; rfl

/-- Entries of a full-length mode on the free DOFs. -/
def onFree (free : List ℕ) (mode : List ℝ) : Fin free.length → ℝ := fun i => mode.getD free[i] 0

/-- The work `φᵀ K ψ` of two vectors on the free DOFs. -/
noncomputable def kProd (K : CSRMatrix ℝ) (free : List ℕ) (x y : Fin free.length → ℝ) : ℝ :=
  ∑ i, ∑ j, x i * K.todense free[i] free[j] * y j

theorem kProd_eq {K : CSRMatrix ℝ} {free : List ℕ} {x y : Fin free.length → ℝ} :
    kProd K free x y = x ⬝ᵥ (restrict K free *ᵥ y) := by
  simp only [kProd, dotProduct, mulVec, restrict, Finset.mul_sum]
  exact Finset.sum_congr rfl (fun i _ => Finset.sum_congr rfl (fun j _ => by ring))

theorem onFree_scatter {K : CSRMatrix ℝ} {free : List ℕ} (hn : free.Nodup) (hr : ∀ i ∈ free, i < K.numRows)
    (v : Fin free.length → ℝ) : onFree free (scatterMode K.numRows free v) = v := by
  funext i
  have h := gather_scatterSet (0 : ℝ) 0 K.numRows free (List.ofFn v) hn hr (by simp)
  have h2 := congrArg (fun l => l.getD i.1 0) h
  rw [gather_getD _ _ _ _ i.2, List.getD_eq_getElem free 0 i.2] at h2
  unfold onFree scatterMode
  rw [show free[i] = free[i.1] from rfl, h2, List.getD_eq_getElem _ _ (by simp)]
  simp

theorem scatter_length (N : ℕ) (free : List ℕ) (v : Fin free.length → ℝ) : (scatterMode N free v).length = N := by
  simp [scatterMode, scatterSet_length]

theorem scatter_off (N : ℕ) (free : List ℕ) (v : Fin free.length → ℝ) (i : ℕ) (hi : i ∉ free) :
    (scatterMode N free v).getD i 0 = 0 := by
  unfold scatterMode
  rw [scatterSet_getD_not_mem _ _ _ _ _ hi]
  by_cases h : i < N
  · rw [List.getD_eq_getElem _ _ (by simpa using h)]; simp
  · rw [List.getD_eq_default _ _ (by simpa using h)]

theorem argsort_pick {ops : EigOps} (hops : EigSpec ops) (key : Fin n → WithTop ℝ) :
    (∀ i, i ∈ ops.argsort key) ∧ (ops.argsort key).Nodup ∧ (ops.argsort key).length = n := by
  obtain ⟨hp, -⟩ := hops.argsort key
  exact ⟨fun i => hp.mem_iff.2 (List.mem_finRange i), hp.nodup_iff.2 (List.nodup_finRange n), by
    rw [hp.length_eq, List.length_finRange]⟩

theorem denseOrder_eq {ops : EigOps} (hops : EigSpec ops) (tol : ℝ) (m : ℕ) (γ : Fin n → ℝ) :
    denseOrder ops tol m γ = ((ops.argsort (fun i => if denseValid tol γ i then ((-1 / γ i : ℝ) : WithTop ℝ) else ⊤)).filter
      (denseValid tol γ)).take m := by
  unfold denseOrder
  refine takeFilter (key := fun i => if denseValid tol γ i then ((-1 / γ i : ℝ) : WithTop ℝ) else ⊤) ?_
    (hops.argsort _).2 m
  intro i
  cases denseValid tol γ i <;> simp

/-- **C104.** `solver="dense"`: the returned pairs are genuine, the factors ascend, the modes vanish on
the constrained DOFs and are orthonormal in the stiffness, at most `num_modes` of them, and a mode that
is not a combination of the returned ones (one orthogonal to them) has a factor at least as high as all
of `num_modes` returned ones: nothing below was skipped, counted with multiplicity. -/
theorem C104_dense {ops : EigOps} (hops : EigSpec ops) {K Kg : CSRMatrix ℝ} {free : List ℕ}
    (hb : BucklingOk K Kg free) (m : ℕ) {tol : ℝ} (ht : 0 ≤ tol) :
    let out := denseBuckling ops K Kg free m tol
    out.length ≤ m ∧
    (∀ p ∈ out, tol < p.1 ∧ p.2.length = K.numRows ∧ (∀ i, i ∉ free → p.2.getD i 0 = 0) ∧
      BucklingMode K Kg free p.1 (onFree free p.2) ∧ kProd K free (onFree free p.2) (onFree free p.2) = 1) ∧
    (out.Pairwise (fun p q => p.1 ≤ q.1 ∧ kProd K free (onFree free p.2) (onFree free q.2) = 0)) ∧
    (∀ lam x, tol < lam → x ≠ 0 → BucklingMode K Kg free lam x →
      (∀ p ∈ out, kProd K free (onFree free p.2) x = 0) → out.length = m ∧ ∀ p ∈ out, p.1 ≤ lam) := by
  obtain ⟨γ, X, hge, hXB, hAX, -, -⟩ := C104_generalized_eigh hops hb.sym hb.spd
  have hout : denseBuckling ops K Kg free m tol = (denseOrder ops tol m γ).map (fun c =>
      (-1 / γ c, scatterMode K.numRows free (fun i => X i c))) := by
    unfold denseBuckling; rw [hge]
  intro out
  simp only [out]
  rw [hout, denseOrder_eq hops]
  set key : Fin free.length → WithTop ℝ := fun i => if denseValid tol γ i then ((-1 / γ i : ℝ) : WithTop ℝ) else ⊤
    with hkey
  obtain ⟨ha1, ha2, ha3⟩ := argsort_pick hops key
  obtain ⟨p1, p2, p3, p4, p5⟩ := pick_spec (valid := denseValid tol γ) ha1 ha2 (hops.argsort key).2 m
  set order := ((ops.argsort key).filter (denseValid tol γ)).take m with horder
  have hvalid : ∀ i, denseValid tol γ i = true ↔ γ i ≠ 0 ∧ tol < -1 / γ i := fun i => by simp [denseValid]
  have hcolF : ∀ c, onFree free (scatterMode K.numRows free (fun i => X i c)) = fun i => X i c := fun c =>
    onFree_scatter hb.nodup hb.range _
  have hXX : ∀ c d, kProd K free (fun i => X i c) (fun i => X i d) = if c = d then 1 else 0 := by
    intro c d
    have := congrFun (congrFun hXB c) d
    rw [Matrix.one_apply] at this
    rw [← this, kProd_eq, Matrix.mul_assoc]
    rfl
  have hcol : ∀ c, restrict Kg free *ᵥ (fun i => X i c) = γ c • (restrict K free *ᵥ (fun i => X i c)) := by
    intro c
    funext i
    have := congrFun (congrFun hAX i) c
    rw [mul_diagonal] at this
    simp only [Pi.smul_apply, smul_eq_mul]
    rw [mul_comm]
    exact this
  refine ⟨by rw [List.length_map, p4]; exact min_le_left _ _, ?_, ?_, ?_⟩
  · intro p hp
    obtain ⟨c, hc, rfl⟩ := List.mem_map.1 hp
    obtain ⟨hγ, hlt⟩ := (hvalid c).1 (p1 c hc)
    refine ⟨hlt, scatter_length _ _ _, fun i hi => scatter_off _ _ _ i hi, ?_, ?_⟩
    · rw [bucklingMode_iff, hcolF, hcol, smul_smul, div_mul_cancel₀ _ hγ]
      simp
    · simp only [hcolF, hXX]; simp
  · rw [List.pairwise_map]
    have hand := p2.and p3
    refine List.Pairwise.imp_of_mem ?_ hand
    rintro a b hma hmb ⟨hk, hne⟩
    refine ⟨?_, ?_⟩
    · simp only [hkey, p1 a hma, p1 b hmb, if_true] at hk
      exact WithTop.coe_le_coe.1 hk
    · simp only [hcolF, hXX, hne]; simp
  · intro lam x hlt hx hmode hort
    have hXi : X * (Xᵀ * restrict K free) = 1 := mul_eq_one_comm.1 hXB
    set c := (Xᵀ * restrict K free) *ᵥ x with hcdef
    have hxc : x = X *ᵥ c := by rw [hcdef, mulVec_mulVec, hXi, one_mulVec]
    have hc0 : c ≠ 0 := by intro h; rw [h, mulVec_zero] at hxc; exact hx hxc
    have hlam : lam ≠ 0 := by intro h0; rw [h0] at hlt; linarith
    have hk : c + lam • (diagonal γ *ᵥ c) = 0 := by
      rw [bucklingMode_iff] at hmode
      have := congrArg (fun v => Xᵀ *ᵥ v) hmode
      rw [mulVec_add, mulVec_smul, mulVec_zero] at this
      have e1 : Xᵀ *ᵥ (restrict K free *ᵥ x) = c := by rw [mulVec_mulVec]
      have e2 : Xᵀ *ᵥ (restrict Kg free *ᵥ x) = diagonal γ *ᵥ c := by
        conv_lhs => rw [hxc]
        rw [mulVec_mulVec, mulVec_mulVec, ← mulVec_mulVec, ← mulVec_mulVec]
        rw [mulVec_mulVec, mulVec_mulVec, Matrix.mul_assoc, hAX, ← Matrix.mul_assoc, ← Matrix.mul_assoc, hXB,
          Matrix.one_mul]
      rw [e1, e2] at this
      exact this
    obtain ⟨i, hi⟩ := Function.ne_iff.1 hc0
    have hi' : c i ≠ 0 := hi
    have hγ : 1 + lam * γ i = 0 := by
      have := congrFun hk i
      rw [Pi.add_apply, Pi.smul_apply, mulVec_diagonal, smul_eq_mul, Pi.zero_apply] at this
      have h2 : c i * (1 + lam * γ i) = 0 := by linear_combination this
      exact (mul_eq_zero.1 h2).resolve_left hi'
    have hγ0 : γ i ≠ 0 := by intro h; rw [h] at hγ; simp at hγ
    have hlami : -1 / γ i = lam := by field_simp; linarith
    have hvi : denseValid tol γ i = true := (hvalid i).2 ⟨hγ0, by rw [hlami]; exact hlt⟩
    have hni : i ∉ order := by
      intro hmem
      have := hort _ (List.mem_map.2 ⟨i, hmem, rfl⟩)
      simp only [hcolF] at this
      rw [kProd_eq] at this
      apply hi'
      rw [hcdef, ← mulVec_mulVec]
      exact this
    obtain ⟨q1, q2⟩ := p5 i hvi hni
    refine ⟨by rw [List.length_map]; exact q1, ?_⟩
    intro p hp
    obtain ⟨d, hd, rfl⟩ := List.mem_map.1 hp
    have := q2 d hd
    simp only [hkey, p1 d hd, hvi, if_true] at this
    rw [← hlami]
    exact WithTop.coe_le_coe.1 this

/-! ## The sparse solver -/

/-- What is assumed of ARPACK's `eigs(T, k, which="LM")` when it converges: it returns `k` eigenpairs;
together with the pairs it left out they form a basis of eigenvectors, and no pair left out is larger
in magnitude than one returned. -/
def LargestPairs (T : Matrix (Fin n) (Fin n) ℝ) (k : ℕ) (out : List (ℝ × (Fin n → ℝ))) : Prop :=
  out.length = k ∧ ∃ rest : List (ℝ × (Fin n → ℝ)), (out ++ rest).length = n ∧
    (∀ p ∈ out ++ rest, T *ᵥ p.2 = p.1 • p.2) ∧
    LinearIndependent ℝ (fun i : Fin (out ++ rest).length => ((out ++ rest).get i).2) ∧
    ∀ p ∈ out, ∀ q ∈ rest, |q.1| ≤ |p.1|

theorem eig_expand {T : Matrix (Fin n) (Fin n) ℝ} {l : List (ℝ × (Fin n → ℝ))} (hlen : l.length = n)
    (hind : LinearIndependent ℝ (fun i : Fin l.length => (l.get i).2)) (heig : ∀ p ∈ l, T *ᵥ p.2 = p.1 • p.2)
    {μ : ℝ} {x : Fin n → ℝ} (hx : T *ᵥ x = μ • x) :
    ∃ c : Fin l.length → ℝ, x = ∑ i, c i • (l.get i).2 ∧ ∀ i, c i ≠ 0 → (l.get i).1 = μ := by
  have hspan := hind.span_eq_top_of_card_eq_finrank' (by simp [hlen])
  have hmem : x ∈ Submodule.span ℝ (Set.range (fun i : Fin l.length => (l.get i).2)) := by rw [hspan]; trivial
  obtain ⟨c, hc⟩ := (Submodule.mem_span_range_iff_exists_fun ℝ).1 hmem
  refine ⟨c, hc.symm, ?_⟩
  have h0 : ∑ i, (c i * ((l.get i).1 - μ)) • (l.get i).2 = 0 := by
    have e1 : T *ᵥ x = ∑ i, (c i * (l.get i).1) • (l.get i).2 := by
      rw [← hc, mulVec_sum]
      refine Finset.sum_congr rfl (fun i _ => ?_)
      rw [mulVec_smul, heig _ (List.get_mem _ _), smul_smul]
    have e2 : μ • x = ∑ i, (c i * μ) • (l.get i).2 := by
      rw [← hc, Finset.smul_sum]
      refine Finset.sum_congr rfl (fun i _ => ?_)
      rw [smul_smul, mul_comm]
    have : ∑ i, (c i * ((l.get i).1 - μ)) • (l.get i).2 = T *ᵥ x - μ • x := by
      rw [e1, e2, ← Finset.sum_sub_distrib]
      refine Finset.sum_congr rfl (fun i _ => ?_)
      rw [← sub_smul]; ring_nf
    rw [this, hx, sub_self]
  intro i hi
  have := Fintype.linearIndependent_iff.1 hind _ h0 i
  rcases mul_eq_zero.1 this with h | h
  · exact absurd h hi
  · linarith

theorem spd_isUnit {B : Matrix (Fin n) (Fin n) ℝ} (hB : Spd B) : IsUnit B.det := by
  rw [isUnit_iff_ne_zero]
  intro h0
  obtain ⟨v, hv, hv0⟩ := Matrix.exists_mulVec_eq_zero_iff.2 h0
  have := hB.2 v hv
  rw [hv0] at this
  simp at this

/-- Eigenvectors of the shift-invert operator. -/
theorem shift_eig {K Kg : Matrix (Fin n) (Fin n) ℝ} (hK : Spd K) (μ : ℝ) (x : Fin n → ℝ) :
    shiftInvert K Kg *ᵥ x = μ • x ↔ Kg *ᵥ x = -(μ • (K *ᵥ x)) := by
  unfold shiftInvert
  rw [half_sym hK.1, neg_mulVec, ← mulVec_mulVec]
  have hu := spd_isUnit hK
  constructor
  · intro h
    have := congrArg (fun v => K *ᵥ v) h
    rw [mulVec_neg, mulVec_mulVec, mul_nonsing_inv _ hu, one_mulVec, mulVec_smul] at this
    rw [← this, neg_neg]
  · intro h
    rw [h, mulVec_neg, neg_neg, mulVec_smul, mulVec_mulVec, nonsing_inv_mul _ hu, one_mulVec]

theorem mode_shift {K Kg : CSRMatrix ℝ} {free : List ℕ} (hb : BucklingOk K Kg free) {lam : ℝ} (hl : lam ≠ 0)
    (x : Fin free.length → ℝ) :
    BucklingMode K Kg free lam x ↔ shiftInvert (restrict K free) (restrict Kg free) *ᵥ x = (1 / lam) • x := by
  rw [shift_eig hb.spd, bucklingMode_iff]
  constructor
  · intro h
    have h2 : lam • (restrict Kg free *ᵥ x) = -(restrict K free *ᵥ x) := by rwa [eq_neg_iff_add_eq_zero, add_comm]
    have := congrArg (fun v => (1 / lam) • v) h2
    rw [smul_smul, one_div_mul_cancel hl, one_smul, smul_neg] at this
    exact this
  · intro h
    rw [h, smul_neg, smul_smul, mul_one_div_cancel hl, one_smul, add_neg_cancel]

theorem sparseValid_iff (mu : ℝ) : sparseValid mu = true ↔ mu ≠ 0 ∧ sparseTol < 1 / mu := by simp [sparseValid]

theorem sparseValid_pos {mu : ℝ} (h : sparseValid mu = true) : 0 < mu := by
  obtain ⟨h0, h1⟩ := (sparseValid_iff mu).1 h
  have : (0 : ℝ) < 1 / mu := lt_trans (by norm_num [sparseTol]) h1
  exact one_div_pos.1 this

theorem vnorm_zero : vnorm (0 : Fin n → ℝ) = 0 := by simp [vnorm]

theorem vnorm_nonneg (x : Fin n → ℝ) : 0 ≤ vnorm x := Real.sqrt_nonneg _

/-- What the run of `_sparse_buckling` amounts to when ARPACK converges. -/
theorem sparse_run {ops : EigOps} {K Kg : CSRMatrix ℝ} {free : List ℕ} {m : ℕ} {convTol : Option ℝ}
    (hc : ∀ t, convTol = some t → 0 ≤ t) (hnf : 3 ≤ free.length)
    {vv : List (ℝ × (Fin free.length → ℝ))}
    (hvv : ops.eigs (shiftInvert (restrict K free) (restrict Kg free)) (arpackK m free.length).toNat = vv)
    (harp : LargestPairs (shiftInvert (restrict K free) (restrict Kg free)) (arpackK m free.length).toNat vv) :
    sparseBuckling ops K Kg free m convTol =
      if convTol ≠ none ∧ sparseOrder ops m (fun i : Fin vv.length => (vv.get i).1) = [] then .error .runtimeError
      else .ok ((sparseOrder ops m (fun i : Fin vv.length => (vv.get i).1)).map
        (fun c => (1 / (vv.get c).1, scatterMode K.numRows free (vv.get c).2))) := by
  have hk : ¬ arpackK m free.length < 1 := by unfold arpackK; omega
  have hne : vv ≠ [] := by
    intro h
    have := harp.1
    rw [h] at this
    simp at this
    omega
  unfold sparseBuckling
  simp only [hk, if_false]
  rw [hvv, if_neg hne]
  cases convTol with
  | none => rw [if_neg (by simp)]
  | some t =>
    set order := sparseOrder ops m (fun i : Fin vv.length => (vv.get i).1) with horder
    cases ho : order with
    | nil => simp
    | cons c cs =>
      obtain ⟨-, rest, -, heig, -⟩ := harp
      have hr : ritzResidual (shiftInvert (restrict K free) (restrict Kg free)) (vv.get c) = 0 := by
        unfold ritzResidual
        rw [heig _ (List.mem_append_left _ (List.get_mem _ c)), sub_self, vnorm_zero, zero_div]
      simp only [hr]
      rw [if_neg (not_lt.2 (hc t rfl)), if_neg (by simp)]

/-- At most four independent vectors are modes whose factor is negative, infinite or below the
solver's threshold: `K_g x = -μ K x` with `μ ≤ 0` or `μ ≥ 10¹²`. -/
def FewOthers (K Kg : CSRMatrix ℝ) (free : List ℕ) : Prop :=
  ∀ f : Fin 5 → (Fin free.length → ℝ), LinearIndependent ℝ f →
    ∃ i, ∀ μ : ℝ, μ ≤ 0 ∨ 10 ^ 12 ≤ μ → restrict Kg free *ᵥ f i ≠ -(μ • (restrict K free *ᵥ f i))

theorem sparseOrder_spec {ops : EigOps} (hops : EigSpec ops) {k : ℕ} (m : ℕ) (mu : Fin k → ℝ) :
    (∀ i ∈ sparseOrder ops m mu, sparseValid (mu i) = true) ∧
    (sparseOrder ops m mu).Pairwise (fun i j => 1 / mu i ≤ 1 / mu j) ∧ (sparseOrder ops m mu).Nodup ∧
    (sparseOrder ops m mu).length ≤ m ∧
    (∀ i, sparseValid (mu i) = true → i ∉ sparseOrder ops m mu →
      (sparseOrder ops m mu).length = m ∧ ∀ j ∈ sparseOrder ops m mu, 1 / mu j ≤ 1 / mu i) ∧
    ((sparseOrder ops m mu).length < m → ∃ l : List (Fin k), l.Nodup ∧ (∀ i ∈ l, sparseValid (mu i) = false) ∧
      k < m + l.length) := by
  set key : Fin k → WithTop ℝ := fun i => if sparseValid (mu i) then ((1 / mu i : ℝ) : WithTop ℝ) else ⊤ with hkey
  obtain ⟨ha1, ha2, ha3⟩ := argsort_pick hops key
  obtain ⟨p1, p2, p3, p4, p5⟩ := pick_spec (valid := fun i => sparseValid (mu i)) ha1 ha2 (hops.argsort key).2 m
  have ho : sparseOrder ops m mu = ((ops.argsort key).filter (fun i => sparseValid (mu i))).take m := rfl
  have hk : ∀ i j, sparseValid (mu i) = true → sparseValid (mu j) = true → key i ≤ key j → 1 / mu i ≤ 1 / mu j := by
    intro i j hi hj h
    simp only [hkey, hi, hj, if_true] at h
    exact WithTop.coe_le_coe.1 h
  rw [ho]
  refine ⟨p1, p2.imp_of_mem (fun {a b} ha hb h => hk a b (p1 a ha) (p1 b hb) h), p3, by rw [p4]; exact min_le_left _ _, ?_, ?_⟩
  · intro i hi hni
    obtain ⟨q1, q2⟩ := p5 i hi hni
    exact ⟨q1, fun j hj => hk j i (p1 j hj) hi (q2 j hj)⟩
  · intro hlt
    refine ⟨(ops.argsort key).filter (fun i => !sparseValid (mu i)), ha2.sublist List.filter_sublist, ?_, ?_⟩
    · intro i hi
      simpa using (List.mem_filter.1 hi).2
    · have h1 := List.length_eq_length_filter_add (l := ops.argsort key) (fun i => sparseValid (mu i))
      rw [p4] at hlt
      omega

theorem invalid_cases {mu : ℝ} (h : sparseValid mu = false) : mu ≤ 0 ∨ 10 ^ 12 ≤ mu := by
  by_cases hm : mu ≤ 0
  · exact Or.inl hm
  · right
    have hpos : 0 < mu := not_le.1 hm
    by_contra hlt
    have : sparseValid mu = true := (sparseValid_iff mu).2 ⟨hpos.ne', by
      unfold sparseTol
      exact one_div_lt_one_div_of_lt hpos (not_le.1 hlt)⟩
    rw [this] at h
    exact absurd h (by simp)

/-- **C104** (partial). `solver="sparse"` when ARPACK converges: what is returned are genuine modes in
ascending order, independent, and no mode outside their span has a lower factor than a returned one; when
at most four independent modes are not positive ones (and there are `num_modes + 6` free DOFs) exactly
`num_modes` are returned. Missing: the count when there are more non-positive modes
(`C104_sparse_misses`). -/
theorem C104_sparse_partial {ops : EigOps} (hops : EigSpec ops) {K Kg : CSRMatrix ℝ} {free : List ℕ}
    (hb : BucklingOk K Kg free) {m : ℕ} {convTol : Option ℝ} (hc : ∀ t, convTol = some t → 0 ≤ t)
    (hnf : 3 ≤ free.length)
    (harp : LargestPairs (shiftInvert (restrict K free) (restrict Kg free)) (arpackK m free.length).toNat
      (ops.eigs (shiftInvert (restrict K free) (restrict Kg free)) (arpackK m free.length).toNat)) :
    (∀ out, sparseBuckling ops K Kg free m convTol = .ok out →
      out.length ≤ m ∧
      (∀ p ∈ out, sparseTol < p.1 ∧ p.2.length = K.numRows ∧ (∀ i, i ∉ free → p.2.getD i 0 = 0) ∧
        BucklingMode K Kg free p.1 (onFree free p.2)) ∧
      LinearIndependent ℝ (fun i : Fin out.length => onFree free (out.get i).2) ∧
      out.Pairwise (fun p q => p.1 ≤ q.1) ∧
      (∀ lam x, sparseTol < lam → BucklingMode K Kg free lam x →
        x ∉ Submodule.span ℝ (Set.range (fun i : Fin out.length => onFree free (out.get i).2)) →
        ∀ p ∈ out, p.1 ≤ lam)) ∧
    (FewOthers K Kg free → m + 6 ≤ free.length → 1 ≤ m →
      ∃ out, sparseBuckling ops K Kg free m convTol = .ok out ∧ out.length = m) := by
  set T := shiftInvert (restrict K free) (restrict Kg free) with hT
  set k := (arpackK m free.length).toNat with hk
  set vv := ops.eigs T k with hvv
  have hrun := sparse_run (ops := ops) (convTol := convTol) hc hnf hvv.symm harp
  obtain ⟨p1, p2, p3, p4, p5, p6⟩ := sparseOrder_spec hops m (fun i : Fin vv.length => (vv.get i).1)
  set order := sparseOrder ops m (fun i : Fin vv.length => (vv.get i).1) with horder
  obtain ⟨hlen, rest, hlenr, heig, hind, hmag⟩ := harp
  have hindv : LinearIndependent ℝ (fun i : Fin vv.length => (vv.get i).2) := by
    have h := hind.comp (fun i : Fin vv.length => (⟨i.1, by rw [List.length_append]; omega⟩ : Fin (vv ++ rest).length))
      (by intro a b hab; simpa [Fin.ext_iff] using hab)
    convert h using 2 with i
    simp
  refine ⟨?_, ?_⟩
  · intro out hout
    rw [hrun] at hout
    have hout' : out = order.map (fun c => (1 / (vv.get c).1, scatterMode K.numRows free (vv.get c).2)) := by
      split at hout
      · exact absurd hout (by simp)
      · exact (Except.ok.inj hout).symm
    have hF : ∀ c, onFree free (scatterMode K.numRows free (vv.get c).2) = (vv.get c).2 := fun c =>
      onFree_scatter hb.nodup hb.range _
    have hol : out.length = order.length := by rw [hout', List.length_map]
    have hget : (fun i : Fin out.length => onFree free (out.get i).2) =
        fun i : Fin out.length => (vv.get (order.get ⟨i.1, by have := i.2; omega⟩)).2 := by
      funext i
      subst hout'
      rw [List.get_eq_getElem, List.getElem_map, hF]
      simp
    refine ⟨by rw [hout', List.length_map]; exact p4, ?_, ?_, ?_, ?_⟩
    · intro p hp
      rw [hout'] at hp
      obtain ⟨c, hc', rfl⟩ := List.mem_map.1 hp
      obtain ⟨h0, hlt⟩ := (sparseValid_iff _).1 (p1 c hc')
      refine ⟨hlt, scatter_length _ _ _, fun i hi => scatter_off _ _ _ i hi, ?_⟩
      rw [hF, mode_shift hb (by simpa using h0)]
      rw [← hT, heig _ (List.mem_append_left _ (List.get_mem _ c)), one_div_one_div]
    · rw [hget]
      refine hindv.comp (fun i : Fin out.length => order.get _) ?_
      intro a b hab
      have := p3.injective_get hab
      simpa [Fin.ext_iff] using this
    · rw [hout', List.pairwise_map]
      exact p2
    · intro lam x hlt hmode hspan p hp
      have hl0 : lam ≠ 0 := by
        intro h; rw [h] at hlt; norm_num [sparseTol] at hlt
      have hlpos : 0 < lam := lt_trans (by norm_num [sparseTol]) hlt
      rw [mode_shift hb hl0] at hmode
      obtain ⟨c, hxc, hcμ⟩ := eig_expand hlenr hind heig hmode
      -- an index carrying weight that is not among the returned ones
      have hex : ∃ i : Fin (vv ++ rest).length, c i ≠ 0 ∧
          ∀ j ∈ order, ((vv ++ rest).get i).2 ≠ (vv.get j).2 := by
        by_contra hno
        push Not at hno
        apply hspan
        rw [hxc]
        refine Submodule.sum_mem _ (fun i _ => ?_)
        by_cases h0 : c i = 0
        · rw [h0, zero_smul]; exact Submodule.zero_mem _
        · obtain ⟨j, hj, hje⟩ := hno i h0
          refine Submodule.smul_mem _ _ (Submodule.subset_span ?_)
          obtain ⟨t, ht, rfl⟩ := List.mem_iff_getElem.1 hj
          refine ⟨⟨t, by rw [hout', List.length_map]; exact ht⟩, ?_⟩
          rw [hget, hje]
          simp
      obtain ⟨i, hi0, hij⟩ := hex
      have hμ := hcμ i hi0
      rw [hout'] at hp
      obtain ⟨d, hd, rfl⟩ := List.mem_map.1 hp
      have hdpos := sparseValid_pos (p1 d hd)
      by_cases hiv : i.1 < vv.length
      · have hgi : (vv ++ rest).get i = vv.get ⟨i.1, hiv⟩ := by simp [List.getElem_append_left hiv]
        rw [hgi] at hμ hij
        have hvi : sparseValid (vv.get ⟨i.1, hiv⟩).1 = true := by
          rw [sparseValid_iff, hμ, one_div_one_div]
          exact ⟨one_div_ne_zero hl0, hlt⟩
        have hni : (⟨i.1, hiv⟩ : Fin vv.length) ∉ order := fun h => hij _ h rfl
        have := (p5 _ hvi hni).2 d hd
        rw [hμ, one_div_one_div] at this
        exact this
      · have hgi : (vv ++ rest).get i ∈ rest := by
          rw [List.get_eq_getElem, List.getElem_append_right (not_lt.1 hiv)]
          exact List.getElem_mem _
        have := hmag _ (List.get_mem vv d) _ hgi
        rw [hμ, abs_of_pos (one_div_pos.2 hlpos), abs_of_pos hdpos] at this
        exact (one_div_le hdpos hlpos).2 this
  · intro hfew hm6 hm1
    have hkm : vv.length = m + 4 := by
      rw [hlen, hk]
      unfold arpackK
      omega
    have hfull : order.length = m := by
      by_contra hne
      obtain ⟨l, hln, hlv, hll⟩ := p6 (lt_of_le_of_ne p4 hne)
      have h5 : 5 ≤ l.length := by omega
      obtain ⟨i, hi⟩ := hfew (fun t : Fin 5 => (vv.get (l.get ⟨t.1, by omega⟩)).2)
        (hindv.comp (fun t : Fin 5 => l.get ⟨t.1, by omega⟩) (by
          intro a b hab
          have := hln.injective_get hab
          simpa [Fin.ext_iff] using this))
      refine hi (vv.get (l.get ⟨i.1, by omega⟩)).1 (invalid_cases (hlv _ (List.get_mem _ _))) ?_
      rw [← shift_eig hb.spd]
      exact heig _ (List.mem_append_left _ (List.get_mem _ _))
    refine ⟨_, by rw [hrun, if_neg (by rintro ⟨-, h⟩; rw [h] at hfull; simp at hfull; omega)], ?_⟩
    rw [List.length_map]; exact hfull

/-! ## The assumptions on the library can be met -/

theorem exists_eigh (C : Matrix (Fin n) (Fin n) ℝ) (hC : Cᵀ = C) :
    ∃ r : (Fin n → ℝ) × Matrix (Fin n) (Fin n) ℝ, r.2ᵀ * r.2 = 1 ∧ C * r.2 = r.2 * diagonal r.1 ∧ Monotone r.1 := by
  have hH : C.IsHermitian := by
    unfold Matrix.IsHermitian
    rw [conjTranspose_eq_transpose_of_trivial]; exact hC
  set U : Matrix (Fin n) (Fin n) ℝ := (hH.eigenvectorUnitary : Matrix (Fin n) (Fin n) ℝ) with hU
  have hUU : Uᵀ * U = 1 := by
    have := Unitary.coe_star_mul_self hH.eigenvectorUnitary
    rw [star_eq_conjTranspose, conjTranspose_eq_transpose_of_trivial] at this
    exact this
  have hcol : ∀ i j, (C * U) i j = U i j * hH.eigenvalues j := by
    intro i j
    have := congrFun (hH.mulVec_eigenvectorBasis j) i
    simp only [Pi.smul_apply, smul_eq_mul] at this
    rw [mul_comm, ← hH.eigenvectorUnitary_apply i j] at this
    rw [← this]
    simp only [mulVec, dotProduct, Matrix.mul_apply]
    exact Finset.sum_congr rfl (fun k _ => by rw [hU, hH.eigenvectorUnitary_apply k j])
  set σ := Tuple.sort hH.eigenvalues
  refine ⟨(hH.eigenvalues ∘ σ, U.submatrix id σ), ?_, ?_, Tuple.monotone_sort hH.eigenvalues⟩
  · ext i j
    have := congrFun (congrFun hUU (σ i)) (σ j)
    rw [Matrix.one_apply] at this ⊢
    simp only [σ.injective.eq_iff] at this
    rw [← this]
    simp [Matrix.mul_apply]
  · ext i j
    rw [mul_diagonal]
    have := hcol i (σ j)
    simpa [Matrix.mul_apply] using this

theorem exists_chol (B : Matrix (Fin n) (Fin n) ℝ) (hB : Spd B) : ∃ L : Matrix (Fin n) (Fin n) ℝ, L * Lᵀ = B := by
  obtain ⟨⟨w, U⟩, hU, hE, -⟩ := exists_eigh B hB.1
  have hUi : U * Uᵀ = 1 := mul_eq_one_comm.1 hU
  have hw : ∀ i, 0 ≤ w i := by
    intro i
    have hne : (fun k => U k i) ≠ 0 := by
      intro h
      have := congrFun (congrFun hU i) i
      rw [Matrix.one_apply_eq, Matrix.mul_apply] at this
      have h2 : ∀ k, U k i = 0 := fun k => congrFun h k
      simp [h2] at this
    have hpos := hB.2 _ hne
    have hBu : B *ᵥ (fun k => U k i) = w i • (fun k => U k i) := by
      funext k
      have := congrFun (congrFun hE k) i
      rw [mul_diagonal] at this
      rw [Pi.smul_apply, smul_eq_mul, mul_comm]
      exact this
    rw [hBu, dotProduct_smul, smul_eq_mul] at hpos
    have hsq : 0 ≤ (fun k => U k i) ⬝ᵥ (fun k => U k i) := Finset.sum_nonneg (fun k _ => mul_self_nonneg _)
    by_contra hneg
    nlinarith
  refine ⟨U * diagonal (fun i => Real.sqrt (w i)), ?_⟩
  rw [transpose_mul, diagonal_transpose]
  calc U * diagonal (fun i => Real.sqrt (w i)) * (diagonal (fun i => Real.sqrt (w i)) * Uᵀ)
      = U * (diagonal (fun i => Real.sqrt (w i)) * diagonal (fun i => Real.sqrt (w i))) * Uᵀ := by
        simp only [Matrix.mul_assoc]
    _ = U * diagonal w * Uᵀ := by
        rw [diagonal_mul_diagonal]
        congr 2
        congr 1
        funext i
        exact Real.mul_self_sqrt (hw i)
    _ = B := by rw [← hE, Matrix.mul_assoc, hUi, Matrix.mul_one]

open Classical in
/-- Routines meeting `EigSpec`: exact Cholesky, spectral theorem, insertion sort. `eigs` is a parameter. -/
noncomputable def exEigOps (eigs : {n : ℕ} → Matrix (Fin n) (Fin n) ℝ → ℕ → List (ℝ × (Fin n → ℝ))) : EigOps where
  chol B := if h : Spd B then some (exists_chol B h).choose else none
  eigh C := if h : Cᵀ = C then (exists_eigh C h).choose else (0, 0)
  argsort {n} key := (List.finRange n).insertionSort (fun i j => key i ≤ key j)
  eigs := eigs

theorem exEigOps_spec (eigs : {n : ℕ} → Matrix (Fin n) (Fin n) ℝ → ℕ → List (ℝ × (Fin n → ℝ))) :
    EigSpec (exEigOps eigs) where
  chol_spd B hB := ⟨(exists_chol B hB).choose, by simp [exEigOps, hB], (exists_chol B hB).choose_spec⟩
  chol_fail B hB := by simp [exEigOps, hB]
  eigh C hC := by
    have := (exists_eigh C hC).choose_spec
    simpa only [exEigOps, hC, dite_true] using this
  argsort {n} key := by
    classical
    refine ⟨List.perm_insertionSort _ _, ?_⟩
    have : Std.Total (fun i j : Fin n => key i ≤ key j) := ⟨fun i j => le_total _ _⟩
    have : IsTrans (Fin n) (fun i j : Fin n => key i ≤ key j) := ⟨fun i j k => le_trans⟩
    exact List.pairwise_insertionSort _ _

/-! ## What `bf` returns -/

/-- **C104.** The values `bf` hands back, from whatever the eigensolver found (at most `num_modes`
pairs whose free part is not zero): always `num_modes` rows; the found factors first, in the same order,
with the mode scaled so that `φᵀ K φ = 1` and still zero on the constrained DOFs; then infinite factors
with zero modes. -/
theorem C104_returned {K Kg : CSRMatrix ℝ} {free : List ℕ} (hb : BucklingOk K Kg free) {m : ℕ}
    {found : List (ℝ × List ℝ)} (hm : found.length ≤ m)
    (hf : ∀ p ∈ found, onFree free p.2 ≠ 0 ∧ p.2.length = K.numRows ∧ ∀ i, i ∉ free → p.2.getD i 0 = 0) :
    let out := finish K free m found
    out.length = m ∧
    (∀ i (hi : i < found.length), ∃ md, out[i]? = some md ∧ md.lam = .fin (found[i]).1 ∧
      md.full.length = K.numRows ∧ (∀ j, j ∉ free → md.full.getD j 0 = 0) ∧
      md.phi = List.ofFn (onFree free md.full) ∧
      (∃ s : ℝ, 0 < s ∧ onFree free md.full = s • onFree free (found[i]).2) ∧
      kProd K free (onFree free md.full) (onFree free md.full) = 1) ∧
    (∀ i, found.length ≤ i → i < m → ∃ md, out[i]? = some md ∧ md.lam = .pinf ∧
      md.full = List.replicate K.numRows 0 ∧ md.phi = List.replicate free.length 0) := by
  intro out
  have hout : out = (found.map (fun p =>
      Mode.mk (.fin p.1) (p.2.map ((1 / Real.sqrt |energy (restrict K free) (gather 0 p.2 free)|) * ·))
        ((gather 0 p.2 free).map ((1 / Real.sqrt |energy (restrict K free) (gather 0 p.2 free)|) * ·)))) ++
      List.replicate (m - found.length)
        (Mode.mk .pinf (List.replicate K.numRows 0) (List.replicate free.length 0)) := by
    simp only [out, finish, List.length_map]
    rw [List.take_of_length_le]
    simp; omega
  rw [hout]
  refine ⟨by simp; omega, ?_, ?_⟩
  · intro i hi
    rw [List.getElem?_append_left (by simpa using hi), List.getElem?_map, List.getElem?_eq_getElem hi]
    obtain ⟨hne, hlen, hoff⟩ := hf _ (List.getElem_mem hi)
    set p := found[i]
    have hg : gather 0 p.2 free = List.ofFn (onFree free p.2) := by
      apply List.ext_getElem (by simp [gather])
      intro k h1 h2
      simp [gather, onFree]
    have hen : energy (restrict K free) (gather 0 p.2 free) = kProd K free (onFree free p.2) (onFree free p.2) := by
      rw [kProd_eq, hg]
      unfold energy dotProduct
      have e : (fun j : Fin free.length => (List.ofFn (onFree free p.2)).getD j 0) = onFree free p.2 := by
        funext j
        rw [List.getD_eq_getElem _ _ (by simp)]
        simp
      rw [e]
      refine Finset.sum_congr rfl (fun j _ => ?_)
      rw [← congrFun e j]
    set E := kProd K free (onFree free p.2) (onFree free p.2) with hE
    have hEpos : 0 < E := by rw [hE, kProd_eq]; exact hb.spd.2 _ hne
    have hs : 0 < 1 / Real.sqrt |E| := one_div_pos.2 (Real.sqrt_pos.2 (abs_pos.2 hEpos.ne'))
    have hfull : onFree free (p.2.map ((1 / Real.sqrt |E|) * ·)) = (1 / Real.sqrt |E|) • onFree free p.2 := by
      funext j
      simp only [onFree, Pi.smul_apply, smul_eq_mul]
      have hj : free[j] < p.2.length := by rw [hlen]; exact hb.range _ (List.getElem_mem _)
      rw [List.getD_eq_getElem _ _ (by simpa using hj), List.getElem_map, List.getD_eq_getElem _ _ hj]
    refine ⟨_, rfl, rfl, by simp [hlen], ?_, ?_, ⟨1 / Real.sqrt |E|, hs, ?_⟩, ?_⟩
    · intro j hj
      by_cases hlt : j < p.2.length
      · rw [List.getD_eq_getElem _ _ (by simpa using hlt), List.getElem_map]
        have := hoff j hj
        rw [List.getD_eq_getElem _ _ hlt] at this
        rw [this, mul_zero]
      · rw [List.getD_eq_default _ _ (by simpa using hlt)]
    · simp only [hen]
      rw [hfull, hg]
      rw [List.map_ofFn]
      rfl
    · simp only [hen]; exact hfull
    · simp only [hen, hfull]
      rw [kProd_eq, mulVec_smul, smul_dotProduct, dotProduct_smul, ← kProd_eq, ← hE]
      simp only [smul_eq_mul, abs_of_pos hEpos]
      rw [← mul_assoc, ← pow_two, div_pow, Real.sq_sqrt hEpos.le, one_pow, one_div_mul_cancel hEpos.ne']
  · intro i h1 h2
    rw [List.getElem?_append_right (by simpa using h1)]
    refine ⟨_, List.getElem?_eq_getElem (by simp; omega), ?_, ?_, ?_⟩ <;> simp

/-- **C104** (violation). When the stiffness block is not positive definite (a mechanism, a missing
support) the dense solver raises nothing: every factor comes back infinite, "never buckles", with zero
modes. -/
theorem C104_dense_singular_silent {ops : EigOps} (hops : EigSpec ops) {K Kg : CSRMatrix ℝ} {free : List ℕ}
    (hsym : (restrict K free)ᵀ = restrict K free) (hns : ¬ Spd (restrict K free)) (m : ℕ) :
    solveHost ops .dense free m K Kg = .ok (List.replicate m
      (Mode.mk .pinf (List.replicate K.numRows 0) (List.replicate free.length 0))) := by
  have h0 : denseBuckling ops K Kg free m denseTol = [] := by
    unfold denseBuckling generalizedEigh
    rw [half_sym hsym, hops.chol_fail _ hns]
  unfold solveHost
  simp [h0, finish]

/-! ## A diagonal example -/

/-- A diagonal matrix in CSR form. -/
def diagCsr (d : List ℝ) : CSRMatrix ℝ :=
  ⟨d, List.range (d.length + 1), List.range d.length, d.length, d.length⟩

theorem diagCsr_rows (d : List ℝ) : (diagCsr d).rowOfSlot = List.range d.length := by
  unfold CSRMatrix.rowOfSlot repeatByPtr diagCsr
  simp only [List.length_range, Nat.add_sub_cancel]
  have : (List.range d.length).map (fun r => List.replicate
      ((List.range (d.length + 1)).getD (r + 1) 0 - (List.range (d.length + 1)).getD r 0) r) =
      (List.range d.length).map (fun r => [r]) := by
    apply List.map_congr_left
    intro r hr
    rw [List.mem_range] at hr
    rw [List.getD_eq_getElem _ _ (by simp; omega), List.getD_eq_getElem _ _ (by simp; omega)]
    simp
  rw [this]
  generalize List.range d.length = l
  induction l with
  | nil => rfl
  | cons a t ih => simp [ih]

theorem diagCsr_wf (d : List ℝ) : CSRWF (diagCsr d) where
  ptr := by simp [diagCsr]
  rows := by rw [diagCsr_rows]; rfl
  data := by simp [diagCsr]
  cols := by simp [diagCsr]

theorem diagCsr_dense (d : List ℝ) {i j : ℕ} (hi : i < d.length) (hj : j < d.length) :
    (diagCsr d).todense i j = if i = j then d.getD i 0 else 0 := by
  rw [todense_eq_sum (diagCsr_wf d) hi hj, diagCsr_rows]
  have hix : (diagCsr d).indices = List.range d.length := rfl
  have hdt : (diagCsr d).data = d := rfl
  rw [hix, hdt, List.length_range]
  have : ∀ s ∈ Finset.range d.length, (if (List.range d.length).getD s 0 = i ∧ (List.range d.length).getD s 0 = j
      then d.getD s 0 else 0) = if s = i then (if i = j then d.getD i 0 else 0) else 0 := by
    intro s hs
    rw [List.getD_eq_getElem _ _ (by simpa using hs), List.getElem_range]
    by_cases h : s = i
    · subst h; simp
    · simp [h]
  rw [Finset.sum_congr rfl this, Finset.sum_ite_eq' _ i, if_pos (Finset.mem_range.2 hi)]

/-- All DOFs of a diagonal example are free. -/
theorem diagCsr_restrict (d : List ℝ) (N : ℕ) (h : d.length = N) :
    restrict (diagCsr d) (List.range N) = diagonal (fun i => d.getD i.1 0) := by
  subst h
  ext i j
  have hi : i.1 < d.length := by simpa using i.2
  have hj : j.1 < d.length := by simpa using j.2
  unfold restrict
  rw [diagCsr_dense d (by simpa using hi) (by simpa using hj)]
  rw [diagonal_apply]
  simp [Fin.ext_iff]

theorem spd_diagonal {d : Fin n → ℝ} (h : ∀ i, 0 < d i) : Spd (diagonal d) := by
  refine ⟨diagonal_transpose _, ?_⟩
  intro x hx
  obtain ⟨i, hi⟩ := Function.ne_iff.1 hx
  have : x ⬝ᵥ (diagonal d *ᵥ x) = ∑ j, d j * x j ^ 2 := by
    unfold dotProduct
    exact Finset.sum_congr rfl (fun j _ => by rw [mulVec_diagonal]; ring)
  rw [this]
  have hi' : x i ≠ 0 := hi
  exact Finset.sum_pos' (fun j _ => mul_nonneg (h j).le (sq_nonneg _)) ⟨i, Finset.mem_univ _,
    mul_pos (h i) (by positivity)⟩

theorem diag_bucklingOk {k g : List ℝ} {N : ℕ} (hk : k.length = N) (hg : g.length = N) (hpos : ∀ x ∈ k, 0 < x) :
    BucklingOk (diagCsr k) (diagCsr g) (List.range N) where
  nodup := List.nodup_range
  range := by intro i hi; simpa [diagCsr, hk] using hi
  spd := by
    rw [diagCsr_restrict k N hk]
    apply spd_diagonal
    intro i
    have hi : i.1 < k.length := by rw [hk]; simpa using i.2
    rw [List.getD_eq_getElem _ _ hi]
    exact hpos _ (List.getElem_mem _)
  sym := by rw [diagCsr_restrict g N hg, diagonal_transpose]

/-- Nine springs of unit stiffness; under the reference load the first softens by one, the last by a
half, and the seven others stiffen by nine tenths. -/
noncomputable def hidK : CSRMatrix ℝ := diagCsr (List.replicate 9 1)
/-- Its geometric stiffness. -/
noncomputable def hidG : CSRMatrix ℝ := diagCsr [-1, 9/10, 9/10, 9/10, 9/10, 9/10, 9/10, 9/10, -1/2]
/-- Its free DOFs. -/
def hidFree : List ℕ := List.range 9

theorem hid_ok : BucklingOk hidK hidG hidFree :=
  diag_bucklingOk (by simp) (by simp) (by simp)

theorem hid_len : hidFree.length = 9 := by simp [hidFree]

/-- Diagonal entries of the geometric stiffness. -/
noncomputable def hidg (i : ℕ) : ℝ := if i = 0 then -1 else if i = 8 then -1/2 else 9/10

theorem hid_K : restrict hidK hidFree = 1 := by
  unfold hidK hidFree
  rw [diagCsr_restrict _ 9 (by simp), ← diagonal_one]
  congr 1
  funext i
  rw [List.getD_eq_getElem _ _ (by have := i.2; simpa using this)]
  exact List.getElem_replicate _

theorem hid_G : restrict hidG hidFree = diagonal (fun i => hidg i.1) := by
  unfold hidG hidFree
  rw [diagCsr_restrict _ 9 (by simp)]
  congr 1
  funext i
  have hi : i.1 < 9 := by have := i.2; simpa using this
  generalize i.1 = j at hi ⊢
  unfold hidg
  interval_cases j <;> simp

theorem hid_eig {μ : ℝ} {v : Fin hidFree.length → ℝ} :
    shiftInvert (restrict hidK hidFree) (restrict hidG hidFree) *ᵥ v = μ • v ↔ ∀ i, hidg i.1 * v i = -(μ * v i) := by
  rw [shift_eig hid_ok.spd, hid_K, hid_G, funext_iff]
  apply forall_congr'
  intro i
  rw [mulVec_diagonal, one_mulVec]
  rfl

theorem hidg_ne_zero {i : ℕ} (h : i ≠ 0) : hidg i ≠ -1 := by
  unfold hidg; rw [if_neg h]; split <;> norm_num

theorem hidg_ne_eight {i : ℕ} (h : i ≠ 8) : hidg i ≠ -1/2 := by
  unfold hidg; rw [if_neg h]; split <;> norm_num

/-- The only eigenvalues, and where their eigenvectors live. -/
theorem hid_spectrum {μ : ℝ} {v : Fin hidFree.length → ℝ} (hv : v ≠ 0)
    (h : shiftInvert (restrict hidK hidFree) (restrict hidG hidFree) *ᵥ v = μ • v) :
    (μ = 1 ∧ ∀ i : Fin hidFree.length, i.1 ≠ 0 → v i = 0) ∨ (μ = 1/2 ∧ ∀ i : Fin hidFree.length, i.1 ≠ 8 → v i = 0) ∨ μ = -9/10 := by
  rw [hid_eig] at h
  obtain ⟨i, hi⟩ := Function.ne_iff.1 hv
  have hi' : v i ≠ 0 := hi
  have hμ : ∀ j, v j ≠ 0 → hidg j.1 = -μ := fun j hj => mul_right_cancel₀ hj (by rw [h j]; ring)
  have h0 := hμ i hi'
  by_cases h1 : μ = 1
  · refine Or.inl ⟨h1, fun j hj => ?_⟩
    by_contra hne
    exact hidg_ne_zero hj (by rw [hμ j hne, h1])
  · by_cases h2 : μ = 1/2
    · refine Or.inr (Or.inl ⟨h2, fun j hj => ?_⟩)
      by_contra hne
      exact hidg_ne_eight hj (by rw [hμ j hne, h2]; norm_num)
    · refine Or.inr (Or.inr ?_)
      unfold hidg at h0
      split at h0
      · exact absurd (by linarith) h1
      · split at h0
        · exact absurd (by linarith) h2
        · linarith

theorem two_on_one {ι : Type*} {f : ι → (Fin n → ℝ)} (hf : LinearIndependent ℝ f) {a : Fin n} {i j : ι} (hij : i ≠ j)
    (hi : ∀ k, k ≠ a → f i k = 0) (hj : ∀ k, k ≠ a → f j k = 0) : False := by
  have h2 : LinearIndependent ℝ ![f i, f j] := by
    have := hf.comp ![i, j] (by
      intro p q hpq
      fin_cases p <;> fin_cases q <;> simp_all)
    convert this using 1
    funext p
    fin_cases p <;> rfl
  have := (LinearIndependent.pair_iff.1 h2) (f j a) (-(f i a)) (by
    funext k
    simp only [Pi.add_apply, Pi.smul_apply, smul_eq_mul, Pi.zero_apply]
    by_cases hk : k = a
    · subst hk; ring
    · rw [hi k hk, hj k hk]; ring)
  have hz : f i = 0 := by
    funext k
    by_cases hk : k = a
    · subst hk; have := this.2; simpa using this
    · exact hi k hk
  exact hf.ne_zero i hz

/-- Unit displacement of one DOF of the example. -/
noncomputable def hidUnit (a : ℕ) : Fin hidFree.length → ℝ := fun i => if i.1 = a then 1 else 0

theorem hid_mode {a : ℕ} (ha : a < 9) (hg : hidg a ≠ 0) :
    hidUnit a ≠ 0 ∧ BucklingMode hidK hidG hidFree (-1 / hidg a) (hidUnit a) := by
  refine ⟨?_, ?_⟩
  · intro h
    have := congrFun h ⟨a, by rw [hid_len]; exact ha⟩
    simp [hidUnit] at this
  · rw [bucklingMode_iff, hid_K, hid_G]
    funext i
    rw [Pi.add_apply, Pi.smul_apply, one_mulVec, mulVec_diagonal]
    simp only [hidUnit, smul_eq_mul, Pi.zero_apply]
    split
    · rename_i h; rw [h]; field_simp; ring
    · simp

theorem hid_arpackK : (arpackK 2 hidFree.length).toNat = 6 := by rw [hid_len]; decide

/-- Among ARPACK's six pairs exactly one has a positive value, and it is one. -/
theorem hid_pairs {vv : List (ℝ × (Fin hidFree.length → ℝ))}
    (h : LargestPairs (shiftInvert (restrict hidK hidFree) (restrict hidG hidFree)) 6 vv) :
    ∃ i0 : Fin vv.length, (vv.get i0).1 = 1 ∧ ∀ i, i ≠ i0 → (vv.get i).1 = -9/10 := by
  obtain ⟨hlen, rest, hlenr, heig, hind, hmag⟩ := h
  have hrest : rest.length = 3 := by
    have h9 := hlenr.trans hid_len
    rw [List.length_append, hlen] at h9; omega
  have hne : ∀ i : Fin (vv ++ rest).length, ((vv ++ rest).get i).2 ≠ 0 := fun i => hind.ne_zero i
  have hsp := fun i : Fin (vv ++ rest).length => hid_spectrum (hne i) (heig _ (List.get_mem _ i))
  have hl : (vv ++ rest).length = 9 := by rw [List.length_append, hlen, hrest]
  have hz : (⟨0, by rw [hid_len]; omega⟩ : Fin hidFree.length).1 = 0 := rfl
  -- two entries with value one, or two with a half, are impossible
  have huniq : ∀ (c : ℝ), c = 1 ∨ c = 1/2 → ∀ i j : Fin (vv ++ rest).length, ((vv ++ rest).get i).1 = c →
      ((vv ++ rest).get j).1 = c → i = j := by
    intro c hc i j hi hj
    by_contra hij
    rcases hc with rfl | rfl
    · have h1 : ∀ i, ((vv ++ rest).get i).1 = 1 → ∀ k : Fin hidFree.length, k.1 ≠ 0 → ((vv ++ rest).get i).2 k = 0 := by
        intro i hi
        rcases hsp i with ⟨-, h⟩ | ⟨h, -⟩ | h
        · exact h
        · rw [hi] at h; norm_num at h
        · rw [hi] at h; norm_num at h
      exact two_on_one (a := (⟨0, by rw [hid_len]; omega⟩ : Fin hidFree.length)) hind hij
        (fun k hk => h1 i hi k (fun h => hk (Fin.ext h))) (fun k hk => h1 j hj k (fun h => hk (Fin.ext h)))
    · have h1 : ∀ i, ((vv ++ rest).get i).1 = 1/2 → ∀ k : Fin hidFree.length, k.1 ≠ 8 → ((vv ++ rest).get i).2 k = 0 := by
        intro i hi
        rcases hsp i with ⟨h, -⟩ | ⟨-, h⟩ | h
        · rw [hi] at h; norm_num at h
        · exact h
        · rw [hi] at h; norm_num at h
      exact two_on_one (a := (⟨8, by rw [hid_len]; omega⟩ : Fin hidFree.length)) hind hij
        (fun k hk => h1 i hi k (fun h => hk (Fin.ext h))) (fun k hk => h1 j hj k (fun h => hk (Fin.ext h)))
  have hrm : ∀ i : Fin (vv ++ rest).length, 6 ≤ i.1 → (vv ++ rest).get i ∈ rest := by
    intro i hi
    rw [List.get_eq_getElem, List.getElem_append_right (by omega)]
    exact List.getElem_mem _
  have hvm : ∀ i : Fin (vv ++ rest).length, i.1 < 6 → (vv ++ rest).get i ∈ vv := by
    intro i hi
    rw [List.get_eq_getElem, List.getElem_append_left (by omega)]
    exact List.getElem_mem _
  -- no one half among the returned
  have hnohalf : ∀ i : Fin (vv ++ rest).length, i.1 < 6 → ((vv ++ rest).get i).1 ≠ 1/2 := by
    intro i hi hh
    have hm6 := hmag _ (hvm i hi) _ (hrm ⟨6, by omega⟩ (le_refl 6))
    rw [hh] at hm6
    have h6 : ((vv ++ rest).get ⟨6, by omega⟩).1 = 1/2 := by
      rcases hsp ⟨6, by omega⟩ with ⟨h, -⟩ | ⟨h, -⟩ | h
      · rw [h] at hm6; norm_num at hm6
      · exact h
      · rw [h] at hm6; norm_num [abs_of_neg, abs_of_pos] at hm6
    have := huniq _ (Or.inr rfl) i ⟨6, by omega⟩ hh h6
    rw [this] at hi
    simp at hi
  -- the one is among the returned
  have hone : ∃ i : Fin (vv ++ rest).length, i.1 < 6 ∧ ((vv ++ rest).get i).1 = 1 := by
    obtain ⟨hu0, hu⟩ := hid_mode (a := 0) (by norm_num) (by norm_num [hidg])
    have hu' : shiftInvert (restrict hidK hidFree) (restrict hidG hidFree) *ᵥ hidUnit 0 = (1 : ℝ) • hidUnit 0 := by
      have := (mode_shift hid_ok (by norm_num [hidg]) _).1 hu
      rw [this]; norm_num [hidg]
    obtain ⟨c, hxc, hcμ⟩ := eig_expand hlenr hind heig hu'
    have : ∃ i, c i ≠ 0 := by
      by_contra hno
      push Not at hno
      apply hu0
      rw [hxc]
      exact Finset.sum_eq_zero (fun i _ => by rw [hno i, zero_smul])
    obtain ⟨i, hi⟩ := this
    by_cases h6 : i.1 < 6
    · exact ⟨i, h6, hcμ i hi⟩
    · exfalso
      have hall : ∀ j : Fin (vv ++ rest).length, j.1 < 6 → ((vv ++ rest).get j).1 = 1 := by
        intro j hj
        have hm := hmag _ (hvm j hj) _ (hrm i (by omega))
        rw [hcμ i hi] at hm
        rcases hsp j with ⟨h, -⟩ | ⟨h, -⟩ | h
        · exact h
        · rw [h] at hm; norm_num at hm
        · rw [h] at hm; norm_num [abs_of_neg, abs_of_pos] at hm
      have := huniq _ (Or.inl rfl) ⟨0, by omega⟩ ⟨1, by omega⟩ (hall _ (by simp)) (hall _ (by simp))
      simp [Fin.ext_iff] at this
  obtain ⟨i0, hi6, hi1⟩ := hone
  have hgv : ∀ i : Fin vv.length, vv.get i = (vv ++ rest).get ⟨i.1, by rw [List.length_append]; omega⟩ := by
    intro i
    simp
  refine ⟨⟨i0.1, by omega⟩, by rw [hgv]; exact hi1, ?_⟩
  intro i hii
  rw [hgv]
  have hi : i.1 < 6 := by have := i.2; omega
  rcases hsp ⟨i.1, by rw [List.length_append]; omega⟩ with ⟨h, -⟩ | ⟨h, -⟩ | h
  · exfalso
    apply hii
    have := huniq _ (Or.inl rfl) _ _ h hi1
    exact Fin.ext (by have := congrArg Fin.val this; exact this)
  · exact absurd h (hnohalf _ hi)
  · exact h

/-- **C104** (violation). Two positive factors, 1 and 2, exist; the default sparse solver, asked for two
modes and with ARPACK converging exactly, reports only the first, and raises nothing: its search is by
magnitude and the seven stiffening directions crowd the second factor out. The dense solver returns both. -/
theorem C104_sparse_misses {ops : EigOps} (hops : EigSpec ops)
    (harp : LargestPairs (shiftInvert (restrict hidK hidFree) (restrict hidG hidFree))
      (arpackK 2 hidFree.length).toNat
      (ops.eigs (shiftInvert (restrict hidK hidFree) (restrict hidG hidFree)) (arpackK 2 hidFree.length).toNat))
    {tol : ℝ} (ht : 0 ≤ tol) :
    BucklingOk hidK hidG hidFree ∧
    (∃ x, x ≠ 0 ∧ BucklingMode hidK hidG hidFree 1 x) ∧ (∃ x, x ≠ 0 ∧ BucklingMode hidK hidG hidFree 2 x) ∧
    (∃ mode, sparseBuckling ops hidK hidG hidFree 2 (some tol) = .ok [(1, mode)]) ∧
    (∃ modes, solveHost ops (.sparse (some tol)) hidFree 2 hidK hidG = .ok modes ∧
      modes.map (·.lam) = [.fin 1, .pinf]) ∧
    (denseBuckling ops hidK hidG hidFree 2 denseTol).length = 2 := by
  have m1 := hid_mode (a := 0) (by norm_num) (by norm_num [hidg])
  have m2 := hid_mode (a := 8) (by norm_num) (by norm_num [hidg])
  have e1 : (-1 / hidg 0 : ℝ) = 1 := by norm_num [hidg]
  have e2 : (-1 / hidg 8 : ℝ) = 2 := by norm_num [hidg]
  rw [e1] at m1
  rw [e2] at m2
  have hsp : ∃ mode, sparseBuckling ops hidK hidG hidFree 2 (some tol) = .ok [(1, mode)] := by
    have hrun := sparse_run (ops := ops) (convTol := some tol) (by intro t h; cases h; exact ht)
      (by rw [hid_len]; norm_num) rfl harp
    rw [hid_arpackK] at hrun harp
    set vv := ops.eigs (shiftInvert (restrict hidK hidFree) (restrict hidG hidFree)) 6
    obtain ⟨i0, hi0, hother⟩ := hid_pairs harp
    obtain ⟨p1, p2, p3, p4, p5, p6⟩ := sparseOrder_spec hops 2 (fun i : Fin vv.length => (vv.get i).1)
    set order := sparseOrder ops 2 (fun i : Fin vv.length => (vv.get i).1)
    have hall : ∀ i ∈ order, i = i0 := by
      intro i hi
      by_contra hne
      have := sparseValid_pos (p1 i hi)
      rw [hother i hne] at this
      norm_num at this
    have hv0 : sparseValid (vv.get i0).1 = true := by
      rw [sparseValid_iff, hi0]; norm_num [sparseTol]
    have hord : order = [i0] := by
      cases ho : order with
      | nil =>
        have := (p5 i0 hv0 (by rw [ho]; simp)).1
        rw [ho] at this; simp at this
      | cons a t =>
        have ha : a = i0 := hall a (by rw [ho]; simp)
        cases t with
        | nil => rw [ha]
        | cons b t' =>
          have hbb : b = i0 := hall b (by rw [ho]; simp)
          rw [ho, ha, hbb] at p3
          simp at p3
    rw [hord] at hrun
    rw [if_neg (by simp)] at hrun
    refine ⟨scatterMode hidK.numRows hidFree (vv.get i0).2, hrun.trans ?_⟩
    simp only [List.map_cons, List.map_nil, hi0]
    rw [one_div_one]
  refine ⟨hid_ok, ⟨_, m1.1, m1.2⟩, ⟨_, m2.1, m2.2⟩, hsp, ?_, ?_⟩
  · obtain ⟨mode, hm⟩ := hsp
    refine ⟨finish hidK hidFree 2 [(1, mode)], by simp only [solveHost, hm]; rfl, ?_⟩
    simp [finish]
  · obtain ⟨d1, d2, d3, d4⟩ := C104_dense hops hid_ok 2 (tol := denseTol) (by norm_num [denseTol])
    set out := denseBuckling ops hidK hidG hidFree 2 denseTol
    have hprod : ∀ a : ℕ, ∀ x : Fin hidFree.length → ℝ, (∀ i : Fin hidFree.length, i.1 = a → x i = 0) →
        kProd hidK hidFree x (hidUnit a) = 0 := by
      intro a x hx
      rw [kProd_eq, hid_K, one_mulVec]
      unfold dotProduct
      refine Finset.sum_eq_zero (fun i _ => ?_)
      by_cases h : i.1 = a
      · rw [hx i h, zero_mul]
      · simp [hidUnit, h]
    by_contra hne
    match hout : out with
    | [] =>
      exact hne (d4 1 _ (by norm_num [denseTol]) m1.1 m1.2 (by simp)).1
    | [p] =>
      obtain ⟨q1, -, -, q2, q3⟩ := d2 p (by simp)
      have hp0 : p.1 ≠ 0 := by intro h; rw [h] at q1; norm_num [denseTol] at q1
      have hpp : 0 < p.1 := lt_trans (by norm_num [denseTol]) q1
      have hx0 : onFree hidFree p.2 ≠ 0 := by
        intro h; rw [h, kProd_eq] at q3; simp at q3
      have hs := hid_spectrum hx0 ((mode_shift hid_ok hp0 _).1 q2)
      rcases hs with ⟨-, h⟩ | ⟨-, h⟩ | h
      · exact hne (d4 2 _ (by norm_num [denseTol]) m2.1 m2.2 (by
          intro p' hp'
          rw [List.mem_singleton.1 hp']
          exact hprod 8 _ (fun i hi => h i (by omega)))).1
      · exact hne (d4 1 _ (by norm_num [denseTol]) m1.1 m1.2 (by
          intro p' hp'
          rw [List.mem_singleton.1 hp']
          exact hprod 0 _ (fun i hi => h i (by omega)))).1
      · have : 0 < 1 / p.1 := one_div_pos.2 hpp
        rw [h] at this; norm_num at this
    | [p, q] => exact hne rfl
    | _ :: _ :: _ :: _ => simp at d1

/-! ### The hypotheses are met -/

/-- ARPACK's answer for a diagonal operator whose entries are ordered by magnitude at position `k`. -/
theorem diag_largest {t : Fin n → ℝ} {k : ℕ} (hk : k ≤ n)
    (hord : ∀ i j : Fin n, i.1 < k → k ≤ j.1 → |t j| ≤ |t i|) : ∃ out, LargestPairs (diagonal t) k out := by
  set l : List (ℝ × (Fin n → ℝ)) := List.ofFn (fun i => (t i, Pi.single i 1)) with hl
  have hlen : l.length = n := by simp [hl]
  have hcat : l.take k ++ l.drop k = l := List.take_append_drop k l
  refine ⟨l.take k, by rw [List.length_take, hlen]; omega, l.drop k, by rw [hcat, hlen], ?_, ?_, ?_⟩
  · rw [hcat]
    intro p hp
    obtain ⟨i, rfl⟩ := (List.mem_ofFn' _ _).1 hp
    funext j
    simp only [Pi.smul_apply, mulVec_diagonal, Pi.single_apply, smul_eq_mul]
    split
    · rename_i h; rw [h]
    · simp
  · rw [hcat]
    rw [Fintype.linearIndependent_iff]
    intro g hg i
    have hi : i.1 < n := by have := i.2; omega
    have := congrFun hg ⟨i.1, hi⟩
    rw [Finset.sum_apply, Finset.sum_eq_single i] at this
    · simpa [hl] using this
    · intro j _ hji
      have : i.1 ≠ j.1 := fun h => hji (Fin.ext h.symm)
      simp [hl, Fin.ext_iff, this]
    · intro h; exact absurd (Finset.mem_univ _) h
  · intro p hp q hq
    obtain ⟨a, ha, rfl⟩ := List.mem_iff_getElem.1 hp
    obtain ⟨b, hb, rfl⟩ := List.mem_iff_getElem.1 hq
    have ha' : a < k := by rw [List.length_take] at ha; omega
    have ha2 : a < n := by omega
    have hb' : k + b < n := by rw [List.length_drop, hlen] at hb; omega
    have := hord ⟨a, ha2⟩ ⟨k + b, hb'⟩ ha' (by simp)
    simpa [hl, List.getElem_take, List.getElem_drop] using this

open Classical in
/-- An ideal ARPACK. -/
noncomputable def idealEigs {n : ℕ} (T : Matrix (Fin n) (Fin n) ℝ) (k : ℕ) : List (ℝ × (Fin n → ℝ)) :=
  if h : ∃ out, LargestPairs T k out then h.choose else []

theorem idealEigs_spec {T : Matrix (Fin n) (Fin n) ℝ} {k : ℕ} (h : ∃ out, LargestPairs T k out) :
    LargestPairs T k (idealEigs T k) := by
  unfold idealEigs; rw [dif_pos h]; exact h.choose_spec

theorem hid_T : shiftInvert (restrict hidK hidFree) (restrict hidG hidFree) = diagonal (fun i => -hidg i.1) := by
  unfold shiftInvert
  rw [hid_K, hid_G, half_sym (by simp)]
  simp

theorem hid_arpack : LargestPairs (shiftInvert (restrict hidK hidFree) (restrict hidG hidFree))
    (arpackK 2 hidFree.length).toNat ((exEigOps idealEigs).eigs
      (shiftInvert (restrict hidK hidFree) (restrict hidG hidFree)) (arpackK 2 hidFree.length).toNat) := by
  apply idealEigs_spec
  rw [hid_T, hid_arpackK]
  refine diag_largest (by rw [hid_len]; norm_num) ?_
  intro i j hi hj
  have hj9 : j.1 < 9 := lt_of_lt_of_eq j.2 hid_len
  have h1 : |-hidg j.1| ≤ 9/10 := by
    unfold hidg
    rw [if_neg (by omega)]
    split <;> norm_num [abs_le]
  have h2 : 9/10 ≤ |-hidg i.1| := by
    unfold hidg
    rw [if_neg (show i.1 ≠ 8 by omega)]
    split <;> norm_num [le_abs]
  exact h1.trans h2

/-- The hypotheses of `C104_sparse_misses` and `C104_sparse_partial` are met. -/
example : EigSpec (exEigOps idealEigs) ∧ BucklingOk hidK hidG hidFree ∧ 3 ≤ hidFree.length :=
  ⟨exEigOps_spec _, hid_ok, by rw [hid_len]; norm_num⟩

/-- The counterexample, with nothing left to assume. -/
example : ∃ mode, sparseBuckling (exEigOps idealEigs) hidK hidG hidFree 2 (some (1 / 100)) = .ok [(1, mode)] :=
  (C104_sparse_misses (exEigOps_spec _) hid_arpack (by norm_num)).2.2.2.1

/-- Eight unit springs that all soften alike under the load: one factor, eight times. -/
theorem uniform_ok : BucklingOk (diagCsr (List.replicate 8 1)) (diagCsr (List.replicate 8 (-1))) (List.range 8) :=
  diag_bucklingOk (by simp) (by simp) (by simp)

theorem uniform_mats : restrict (diagCsr (List.replicate 8 1)) (List.range 8) = 1 ∧
    restrict (diagCsr (List.replicate 8 (-1))) (List.range 8) = -1 := by
  refine ⟨?_, ?_⟩
  · rw [diagCsr_restrict _ 8 (by simp), ← diagonal_one]
    congr 1
    funext i
    rw [List.getD_eq_getElem _ _ (by have := i.2; simpa using this)]
    exact List.getElem_replicate _
  · rw [diagCsr_restrict _ 8 (by simp), ← diagonal_one, diagonal_neg]
    congr 1
    funext i
    rw [List.getD_eq_getElem _ _ (by have := i.2; simpa using this)]
    exact List.getElem_replicate _

/-- The count of `C104_sparse_partial` applies: two modes are returned when two are asked for. -/
example : ∃ out, sparseBuckling (exEigOps idealEigs) (diagCsr (List.replicate 8 1))
    (diagCsr (List.replicate 8 (-1))) (List.range 8) 2 (some (1 / 100)) = .ok out ∧ out.length = 2 := by
  refine (C104_sparse_partial (exEigOps_spec _) uniform_ok (by intro t h; cases h; norm_num) (by simp) ?_).2 ?_
    (by simp) (by norm_num)
  · apply idealEigs_spec
    rw [uniform_mats.1, uniform_mats.2]
    have : shiftInvert (1 : Matrix (Fin (List.range 8).length) (Fin (List.range 8).length) ℝ) (-1) = diagonal (fun _ => 1) := by
      unfold shiftInvert; rw [half_sym (by simp)]; simp
    rw [this]
    exact diag_largest (by simp; decide) (by simp)
  · intro f hf
    refine ⟨0, ?_⟩
    intro μ hμ h
    rw [uniform_mats.1, uniform_mats.2, neg_mulVec, one_mulVec, neg_inj] at h
    obtain ⟨i, hi⟩ := Function.ne_iff.1 (hf.ne_zero 0)
    have h2 := congrFun h i
    have hi' : f 0 i ≠ 0 := hi
    have h1 : μ = 1 := by
      rw [Pi.smul_apply, smul_eq_mul] at h2
      exact mul_right_cancel₀ hi' (by rw [← h2, one_mul])
    rcases hμ with h | h <;> rw [h1] at h <;> norm_num at h

/-- A stiffness that is not positive definite: `C104_dense_singular_silent` applies. -/
example : (restrict (diagCsr [1, 0]) (List.range 2))ᵀ = restrict (diagCsr [1, 0]) (List.range 2) ∧
    ¬ Spd (restrict (diagCsr [1, 0]) (List.range 2)) := by
  rw [diagCsr_restrict _ 2 (by simp)]
  refine ⟨diagonal_transpose _, ?_⟩
  intro h
  have := h.2 (Pi.single ⟨1, by simp⟩ 1) (by simp)
  simp at this

/-- **C104.** The sizes handed to ARPACK. With at least `num_modes + 7` free DOFs they are the ones it
accepts (`1 ≤ k`, `k + 2 ≤ ncv ≤ n`, as SciPy demands for a non-symmetric operator); with fewer, the
basis has only one vector more than the pairs asked for, which SciPy refuses, although the code's own
guard ("too few free DoFs, use dense") speaks up only below three. -/
theorem C104_arpack_sizes (m nf mv : ℕ) :
    (m + 7 ≤ nf → 1 ≤ arpackK m nf ∧ arpackK m nf + 2 ≤ arpackNcv m nf mv ∧ arpackNcv m nf mv ≤ nf) ∧
    (3 ≤ nf → nf < m + 7 → 1 ≤ arpackK m nf ∧ arpackNcv m nf mv = arpackK m nf + 1) := by
  unfold arpackNcv arpackK
  refine ⟨?_, ?_⟩ <;> intros <;> omega

/-! ## Sensitivities -/

/-- `xᵀ M y` for matrices. -/
theorem slope_bilin {M : ℝ → Matrix (Fin n) (Fin n) ℝ} {M' : Matrix (Fin n) (Fin n) ℝ}
    (hM : ∀ i j, HasDerivAt (fun t => M t i j) (M' i j) 0) {φ : ℝ → Fin n → ℝ}
    (hφ : ∀ i, ContinuousAt (fun t => φ t i) 0) :
    Filter.Tendsto (fun t => ∑ i, ∑ j, φ 0 i * (t⁻¹ * (M t i j - M 0 i j)) * φ t j) (nhdsWithin 0 {0}ᶜ)
      (nhds (∑ i, ∑ j, φ 0 i * M' i j * φ 0 j)) := by
  refine tendsto_finset_sum _ (fun i _ => tendsto_finset_sum _ (fun j _ => ?_))
  have h1 := (hasDerivAt_iff_tendsto_slope.1 (hM i j))
  have h1' : Filter.Tendsto (fun t => t⁻¹ * (M t i j - M 0 i j)) (nhdsWithin 0 {0}ᶜ) (nhds (M' i j)) := by
    refine h1.congr (fun t => ?_)
    simp [slope]
  exact (tendsto_const_nhds.mul h1').mul ((hφ j).tendsto.mono_left nhdsWithin_le_nhds)

/-- **C105.** The sensitivity the gradient is built on is the derivative of the factor: along any
differentiable path of symmetric matrices, for any factor `λ(t) ≠ 0` with a mode `φ(t)` that moves
continuously and has `φᵀ K φ = 1` at the start, `λ` is differentiable there and
`dλ = λ φᵀ dK φ + λ² φᵀ dK_g φ`. Neither differentiability of the mode nor of the factor is assumed. -/
theorem C105_derivative {K Kg : ℝ → Matrix (Fin n) (Fin n) ℝ} {K' Kg' : Matrix (Fin n) (Fin n) ℝ}
    {lam : ℝ → ℝ} {φ : ℝ → Fin n → ℝ}
    (hsK : (K 0)ᵀ = K 0) (hsG : (Kg 0)ᵀ = Kg 0)
    (hK : ∀ i j, HasDerivAt (fun t => K t i j) (K' i j) 0)
    (hG : ∀ i j, HasDerivAt (fun t => Kg t i j) (Kg' i j) 0)
    (hmode : ∀ t, K t *ᵥ φ t + lam t • (Kg t *ᵥ φ t) = 0) (hφ : ∀ i, ContinuousAt (fun t => φ t i) 0)
    (hnorm : φ 0 ⬝ᵥ (K 0 *ᵥ φ 0) = 1) :
    HasDerivAt lam (lam 0 * (φ 0 ⬝ᵥ (K' *ᵥ φ 0)) + lam 0 ^ 2 * (φ 0 ⬝ᵥ (Kg' *ᵥ φ 0))) 0 := by
  have bil : ∀ (M : Matrix (Fin n) (Fin n) ℝ) (x y : Fin n → ℝ), x ⬝ᵥ (M *ᵥ y) = ∑ i, ∑ j, x i * M i j * y j := by
    intro M x y
    simp only [dotProduct, mulVec, Finset.mul_sum]
    exact Finset.sum_congr rfl (fun i _ => Finset.sum_congr rfl (fun j _ => by ring))
  have sym : ∀ (M : Matrix (Fin n) (Fin n) ℝ), Mᵀ = M → ∀ x y : Fin n → ℝ, x ⬝ᵥ (M *ᵥ y) = y ⬝ᵥ (M *ᵥ x) := by
    intro M hM x y
    rw [dotProduct_mulVec, ← mulVec_transpose, hM, dotProduct_comm]
  set b : ℝ → ℝ := fun t => φ 0 ⬝ᵥ (Kg t *ᵥ φ t) with hb
  have hbc : ContinuousAt b 0 := by
    simp only [hb, bil]
    refine tendsto_finset_sum _ (fun i _ => tendsto_finset_sum _ (fun j _ => ?_))
    exact (tendsto_const_nhds.mul (hG i j).continuousAt.tendsto).mul (hφ j).tendsto
  have hb0 : lam 0 * b 0 = -1 := by
    have := congrArg (fun v => φ 0 ⬝ᵥ v) (hmode 0)
    simp only [dotProduct_add, dotProduct_smul, smul_eq_mul, hnorm, dotProduct_zero] at this
    simp only [hb]; linarith
  have hbne : b 0 ≠ 0 := by intro h; rw [h] at hb0; simp at hb0
  -- the exact increment
  have hinc : ∀ t, (lam t - lam 0) * b t =
      -((φ 0 ⬝ᵥ ((K t - K 0) *ᵥ φ t)) + lam 0 * (φ 0 ⬝ᵥ ((Kg t - Kg 0) *ᵥ φ t))) := by
    intro t
    have h1 := congrArg (fun v => φ 0 ⬝ᵥ v) (hmode t)
    have h2 := congrArg (fun v => φ t ⬝ᵥ v) (hmode 0)
    simp only [dotProduct_add, dotProduct_smul, smul_eq_mul, dotProduct_zero] at h1 h2
    rw [sym _ hsK, sym _ hsG] at h2
    simp only [hb, sub_mulVec, dotProduct_sub]
    linarith
  rw [hasDerivAt_iff_tendsto_slope]
  have hlim : Filter.Tendsto (fun t => -((∑ i, ∑ j, φ 0 i * (t⁻¹ * (K t i j - K 0 i j)) * φ t j) +
      lam 0 * (∑ i, ∑ j, φ 0 i * (t⁻¹ * (Kg t i j - Kg 0 i j)) * φ t j)) / b t) (nhdsWithin 0 {0}ᶜ)
      (nhds (-((∑ i, ∑ j, φ 0 i * K' i j * φ 0 j) + lam 0 * (∑ i, ∑ j, φ 0 i * Kg' i j * φ 0 j)) / b 0)) :=
    (((slope_bilin hK hφ).add (tendsto_const_nhds.mul (slope_bilin hG hφ))).neg).div
      (hbc.tendsto.mono_left nhdsWithin_le_nhds) hbne
  have hval : -((∑ i, ∑ j, φ 0 i * K' i j * φ 0 j) + lam 0 * (∑ i, ∑ j, φ 0 i * Kg' i j * φ 0 j)) / b 0 =
      lam 0 * (φ 0 ⬝ᵥ (K' *ᵥ φ 0)) + lam 0 ^ 2 * (φ 0 ⬝ᵥ (Kg' *ᵥ φ 0)) := by
    rw [← bil, ← bil, div_eq_iff hbne]
    linear_combination (-(φ 0 ⬝ᵥ (K' *ᵥ φ 0)) - lam 0 * (φ 0 ⬝ᵥ (Kg' *ᵥ φ 0))) * hb0
  rw [hval] at hlim
  refine hlim.congr' ?_
  have hev : ∀ᶠ t in nhdsWithin (0 : ℝ) {0}ᶜ, b t ≠ 0 :=
    (hbc.eventually_ne hbne).filter_mono nhdsWithin_le_nhds
  filter_upwards [hev] with t ht
  rw [div_eq_iff ht]
  simp only [slope, sub_zero, vsub_eq_sub, smul_eq_mul]
  have e : ∀ M : ℝ → Matrix (Fin n) (Fin n) ℝ, ∑ i, ∑ j, φ 0 i * (t⁻¹ * (M t i j - M 0 i j)) * φ t j =
      t⁻¹ * (φ 0 ⬝ᵥ ((M t - M 0) *ᵥ φ t)) := by
    intro M
    rw [bil, Finset.mul_sum]
    refine Finset.sum_congr rfl (fun i _ => ?_)
    rw [Finset.mul_sum]
    exact Finset.sum_congr rfl (fun j _ => by simp only [Matrix.sub_apply]; ring)
  rw [e, e]
  linear_combination (-t⁻¹) * hinc t

/-- A path meeting the hypotheses of `C105_derivative`: one spring whose stiffness grows. -/
example : HasDerivAt (fun t : ℝ => 1 + t) (1 * ((fun _ : Fin 1 => (1 : ℝ)) ⬝ᵥ ((1 : Matrix (Fin 1) (Fin 1) ℝ) *ᵥ fun _ => 1)) +
    1 ^ 2 * ((fun _ : Fin 1 => (1 : ℝ)) ⬝ᵥ ((0 : Matrix (Fin 1) (Fin 1) ℝ) *ᵥ fun _ => 1))) 0 := by
  have := C105_derivative (n := 1) (K := fun t => (1 + t) • (1 : Matrix (Fin 1) (Fin 1) ℝ)) (Kg := fun _ => -1) (K' := 1)
    (Kg' := 0) (lam := fun t => 1 + t) (φ := fun _ _ => 1) (by simp) (by simp)
    (by
      intro i j
      have hij : i = j := Subsingleton.elim _ _
      subst hij
      simpa using (hasDerivAt_id (0 : ℝ)).const_add 1)
    (by intro i j; simpa using hasDerivAt_const (0 : ℝ) ((-1 : Matrix (Fin 1) (Fin 1) ℝ) i j))
    (by intro t; simp [smul_mulVec, neg_mulVec])
    (by intro i; exact continuousAt_const)
    (by simp [dotProduct])
  simpa using this

/-! ### The cotangents -/

/-- The free part of a mode as a vector. -/
def phiVec (free : List ℕ) (phi : List ℝ) : Fin free.length → ℝ := fun i => phi.getD i 0

/-- Real value of one cotangent entry: `Σ_k w_k φ_k[r] φ_k[c]` when both DOFs are free. -/
noncomputable def cotReal (free : List ℕ) (phi : List (List ℝ)) (w : List ℝ) (r c : ℕ) : ℝ :=
  if r ∈ free ∧ c ∈ free then
    ∑ k ∈ Finset.range w.length, w.getD k 0 * (phi.getD k []).getD (free.idxOf r) 0 * (phi.getD k []).getD (free.idxOf c) 0
  else 0

theorem foldr_fin (l : List ℝ) : (l.map XR.fin).foldr XR.add (.fin 0) = .fin l.sum := by
  induction l with
  | nil => rfl
  | cons a t ih => simp [ih, XR.add]

theorem cotEntry_fin {free : List ℕ} {phi : List (List ℝ)} {w : List ℝ} (hl : w.length = phi.length) (r c : ℕ) :
    cotEntry free phi (w.map .fin) r c = .fin (cotReal free phi w r c) := by
  unfold cotEntry cotReal remap
  by_cases hr : r ∈ free
  · by_cases hc : c ∈ free
    · simp only [hr, hc, if_true, and_self]
      have : ((w.map XR.fin).zip phi).map (fun p => (p.1.mul (.fin (p.2.getD (free.idxOf r) 0))).mul (.fin (p.2.getD (free.idxOf c) 0))) =
          ((w.zip phi).map (fun p => p.1 * p.2.getD (free.idxOf r) 0 * p.2.getD (free.idxOf c) 0)).map XR.fin := by
        rw [List.zip_map_left, List.map_map, List.map_map]
        apply List.map_congr_left
        intro p _
        simp [XR.mul]
      rw [this, foldr_fin, zip_eq_range_map 0 [] w phi hl, List.map_map]
      congr 1
    · simp [hr, hc]
  · simp [hr]

theorem sum_pick {free : List ℕ} (hn : free.Nodup) (f : ℕ → ℝ) (r : ℕ) :
    ∑ a : Fin free.length, (if r = free[a] then f a.1 else 0) = if r ∈ free then f (free.idxOf r) else 0 := by
  by_cases hr : r ∈ free
  · rw [if_pos hr]
    have hlt : free.idxOf r < free.length := List.idxOf_lt_length_iff.2 hr
    rw [Finset.sum_eq_single (⟨free.idxOf r, hlt⟩ : Fin free.length)]
    · rw [if_pos]
      exact (List.getElem_idxOf hlt).symm
    · intro b _ hb
      rw [if_neg]
      intro h
      apply hb
      apply Fin.ext
      show b.1 = free.idxOf r
      rw [h]
      exact (hn.idxOf_getElem b.1 b.2).symm
    · intro h; exact absurd (Finset.mem_univ _) h
  · rw [if_neg hr]
    refine Finset.sum_eq_zero (fun a _ => ?_)
    rw [if_neg]
    intro h
    exact hr (h ▸ List.getElem_mem _)

/-- One mode: pairing `φ φᵀ` on the stored entries with a change of the data is `φᵀ dM φ`. -/
theorem pair_one {M : CSRMatrix ℝ} (hM : CSRWF M) {free : List ℕ} (hn : free.Nodup)
    (hr : ∀ i ∈ free, i < M.numRows ∧ i < M.numCols) (phi : List ℝ) :
    (∑ s ∈ Finset.range M.indices.length,
      (if M.rowOfSlot.getD s 0 ∈ free ∧ M.indices.getD s 0 ∈ free then
        phi.getD (free.idxOf (M.rowOfSlot.getD s 0)) 0 * phi.getD (free.idxOf (M.indices.getD s 0)) 0 else 0) *
        M.data.getD s 0) = kProd M free (phiVec free phi) (phiVec free phi) := by
  unfold kProd
  have h1 : ∀ i j : Fin free.length, phiVec free phi i * M.todense free[i] free[j] * phiVec free phi j =
      ∑ s ∈ Finset.range M.indices.length,
        (if M.rowOfSlot.getD s 0 = free[i] then phi.getD i.1 0 else 0) *
        ((if M.indices.getD s 0 = free[j] then phi.getD j.1 0 else 0) * M.data.getD s 0) := by
    intro i j
    rw [todense_eq_sum hM (i := free[i]) (j := free[j]) (hr _ (List.getElem_mem _)).1 (hr _ (List.getElem_mem _)).2,
      Finset.mul_sum, Finset.sum_mul]
    refine Finset.sum_congr rfl (fun s _ => ?_)
    unfold phiVec
    by_cases ha : M.rowOfSlot.getD s 0 = free[i]
    · by_cases hb : M.indices.getD s 0 = free[j]
      · rw [if_pos ⟨ha, hb⟩, if_pos ha, if_pos hb]; ring
      · rw [if_neg (fun h => hb h.2), if_neg hb]; ring
    · rw [if_neg (fun h => ha h.1), if_neg ha]; ring
  simp only [h1]
  have h2 : ∀ s, ∑ i : Fin free.length, ∑ j : Fin free.length,
      (if M.rowOfSlot.getD s 0 = free[i] then phi.getD i.1 0 else 0) *
        ((if M.indices.getD s 0 = free[j] then phi.getD j.1 0 else 0) * M.data.getD s 0) =
      (if M.rowOfSlot.getD s 0 ∈ free ∧ M.indices.getD s 0 ∈ free then
        phi.getD (free.idxOf (M.rowOfSlot.getD s 0)) 0 * phi.getD (free.idxOf (M.indices.getD s 0)) 0 else 0) *
        M.data.getD s 0 := by
    intro s
    simp only [← Finset.mul_sum, ← Finset.sum_mul]
    rw [sum_pick hn (fun k => phi.getD k 0), sum_pick hn (fun k => phi.getD k 0)]
    by_cases ha : M.rowOfSlot.getD s 0 ∈ free
    · by_cases hb : M.indices.getD s 0 ∈ free
      · simp only [ha, hb, and_self, if_true]; ring
      · simp only [ha, hb, and_false, if_false]; ring
    · simp only [ha, false_and, if_false]; ring
  rw [Finset.sum_congr rfl (fun s _ => (h2 s).symm)]
  rw [Finset.sum_comm]
  refine Finset.sum_congr rfl (fun i _ => ?_)
  rw [Finset.sum_comm]

theorem withData_wf {M : CSRMatrix ℝ} (hM : CSRWF M) {d : List ℝ} (hd : d.length = M.indices.length) :
    CSRWF (M.withData d) where
  ptr := hM.ptr
  rows := hM.rows
  data := hd
  cols := hM.cols

/-- Pairing the real cotangents with a change of the data. -/
theorem pair_all {M : CSRMatrix ℝ} (hM : CSRWF M) {free : List ℕ} (hn : free.Nodup)
    (hr : ∀ i ∈ free, i < M.numRows ∧ i < M.numCols) (phi : List (List ℝ)) (w d : List ℝ)
    (hd : d.length = M.indices.length) :
    (List.zipWith (· * ·) (List.zipWith (cotReal free phi w) M.rowOfSlot M.indices) d).sum =
      ∑ k ∈ Finset.range w.length, w.getD k 0 *
        kProd (M.withData d) free (phiVec free (phi.getD k [])) (phiVec free (phi.getD k [])) := by
  have e : List.zipWith (· * ·) (List.zipWith (cotReal free phi w) M.rowOfSlot M.indices) d =
      (List.range M.indices.length).map (fun s =>
        cotReal free phi w (M.rowOfSlot.getD s 0) (M.indices.getD s 0) * d.getD s 0) := by
    apply List.ext_getElem (by simp [hM.rows, hd])
    intro k h1 h2
    have hk : k < M.indices.length := by simpa using h2
    rw [List.getElem_zipWith, List.getElem_zipWith, List.getElem_map, List.getElem_range,
      List.getD_eq_getElem _ _ (by rw [hM.rows]; exact hk), List.getD_eq_getElem _ _ hk,
      List.getD_eq_getElem _ _ (by rw [hd]; exact hk)]
  rw [e]
  show ∑ s ∈ Finset.range M.indices.length, _ = _
  have h1 : ∀ k ∈ Finset.range w.length, w.getD k 0 *
      kProd (M.withData d) free (phiVec free (phi.getD k [])) (phiVec free (phi.getD k [])) =
      ∑ s ∈ Finset.range M.indices.length, w.getD k 0 *
        ((if M.rowOfSlot.getD s 0 ∈ free ∧ M.indices.getD s 0 ∈ free then
          (phi.getD k []).getD (free.idxOf (M.rowOfSlot.getD s 0)) 0 *
            (phi.getD k []).getD (free.idxOf (M.indices.getD s 0)) 0 else 0) * d.getD s 0) := by
    intro k _
    rw [← pair_one (withData_wf hM hd) hn hr, Finset.mul_sum]
    rfl
  rw [Finset.sum_congr rfl h1, Finset.sum_comm]
  refine Finset.sum_congr rfl (fun s _ => ?_)
  unfold cotReal
  split
  · rw [Finset.sum_mul]
    exact Finset.sum_congr rfl (fun k _ => by ring)
  · simp

theorem outer_fin {M : CSRMatrix ℝ} {free : List ℕ} {phi : List (List ℝ)} {w : List ℝ} (hl : w.length = phi.length) :
    outerCotangent M free phi (w.map .fin) = (List.zipWith (cotReal free phi w) M.rowOfSlot M.indices).map .fin := by
  unfold outerCotangent
  rw [List.map_zipWith]
  congr 1
  funext r c
  exact cotEntry_fin hl r c

/-- **C105.** Reverse mode of `bf` when every requested mode was found (finite factors): the cotangents
are finite, one per stored entry, and paired with any change of the stored data of `K` and `K_g` they
give `Σ_k λ̄_k (λ_k φ_kᵀ dK φ_k + λ_k² φ_kᵀ dK_g φ_k)`, the change of the factors (`C105_derivative`)
weighted by the incoming cotangent. -/
theorem C105_bwd {K Kg : CSRMatrix ℝ} (hK : CSRWF K) (hG : CSRWF Kg) {free : List ℕ} (hn : free.Nodup)
    (hr : ∀ i ∈ free, i < K.numRows ∧ i < K.numCols ∧ i < Kg.numRows ∧ i < Kg.numCols)
    {modes : List Mode} {lams lamBar dK dG : List ℝ} (hlam : modes.map (·.lam) = lams.map .fin)
    (hbar : lamBar.length = modes.length) (hdK : dK.length = K.indices.length) (hdG : dG.length = Kg.indices.length) :
    ∃ cK cG : List ℝ, hostBwd free K Kg modes lamBar = (cK.map .fin, cG.map .fin) ∧
      cK.length = K.indices.length ∧ cG.length = Kg.indices.length ∧
      (List.zipWith (· * ·) cK dK).sum + (List.zipWith (· * ·) cG dG).sum =
        ∑ k ∈ Finset.range modes.length, lamBar.getD k 0 *
          (lams.getD k 0 * kProd (K.withData dK) free (phiVec free ((modes.map (·.phi)).getD k []))
              (phiVec free ((modes.map (·.phi)).getD k [])) +
            lams.getD k 0 ^ 2 * kProd (Kg.withData dG) free (phiVec free ((modes.map (·.phi)).getD k []))
              (phiVec free ((modes.map (·.phi)).getD k []))) := by
  have hll : lams.length = modes.length := by
    have := congrArg List.length hlam; simpa using this.symm
  have hlk : ∀ k (h : k < modes.length), modes[k].lam = .fin (lams[k]'(by omega)) := by
    intro k h
    have := congrArg (fun l : List XR => l[k]?) hlam
    simp only [List.getElem?_map, List.getElem?_eq_getElem h, List.getElem?_eq_getElem (show k < lams.length by omega),
      Option.map_some] at this
    exact Option.some.inj this
  have hw : List.zipWith (fun b (md : Mode) => (XR.fin b).mul md.lam) lamBar modes =
      (List.zipWith (fun b l => b * l) lamBar lams).map .fin := by
    apply List.ext_getElem (by simp [hbar, hll])
    intro k h1 h2
    have hk : k < modes.length := by simp [hbar] at h1; exact h1
    rw [List.getElem_zipWith, List.getElem_map, List.getElem_zipWith, hlk k hk]
    rfl
  have hw2 : List.zipWith (fun b (md : Mode) => ((XR.fin b).mul md.lam).mul md.lam) lamBar modes =
      (List.zipWith (fun b l => b * l * l) lamBar lams).map .fin := by
    apply List.ext_getElem (by simp [hbar, hll])
    intro k h1 h2
    have hk : k < modes.length := by simp [hbar] at h1; exact h1
    rw [List.getElem_zipWith, List.getElem_map, List.getElem_zipWith, hlk k hk]
    rfl
  refine ⟨_, _, by unfold hostBwd; rw [hw, hw2, outer_fin (by simp [hbar, hll]), outer_fin (by simp [hbar, hll])],
    by simp [hK.rows], by simp [hG.rows], ?_⟩
  rw [pair_all hK hn (fun i hi => ⟨(hr i hi).1, (hr i hi).2.1⟩) _ _ _ hdK,
    pair_all hG hn (fun i hi => (hr i hi).2.2) _ _ _ hdG]
  have hz1 : (List.zipWith (fun b l => b * l) lamBar lams).length = modes.length := by simp [hbar, hll]
  have hz2 : (List.zipWith (fun b l => b * l * l) lamBar lams).length = modes.length := by simp [hbar, hll]
  rw [hz1, hz2, ← Finset.sum_add_distrib]
  refine Finset.sum_congr rfl (fun k hk => ?_)
  rw [Finset.mem_range] at hk
  rw [List.getD_eq_getElem (List.zipWith (fun b l => b * l) lamBar lams) _ (by omega),
    List.getD_eq_getElem (List.zipWith (fun b l => b * l * l) lamBar lams) _ (by omega),
    List.getD_eq_getElem lamBar _ (by omega),
    List.getD_eq_getElem lams _ (by omega), List.getElem_zipWith, List.getElem_zipWith]
  ring

theorem add_nan (x : XR) : x.add .nan = .nan := by cases x <;> rfl

theorem foldr_nan {l : List XR} (h : XR.nan ∈ l) (z : XR) : l.foldr XR.add z = .nan := by
  induction l with
  | nil => simp at h
  | cons a t ih =>
    rw [List.foldr_cons]
    rcases List.mem_cons.1 h with h | h
    · rw [← h]; rfl
    · rw [ih h, add_nan]

theorem inf_zero (b : ℝ) : (((XR.fin b).mul .pinf).mul (.fin 0)) = .nan ∧
    ((((XR.fin b).mul .pinf).mul .pinf).mul (.fin 0)) = .nan := by
  simp only [XR.mul]
  by_cases hb : b = 0
  · simp [hb, XR.mul]
  · by_cases hp : 0 < b
    · simp [hb, hp, XR.mul]
    · simp [hb, hp, XR.mul]

theorem cot_nan {free : List ℕ} {phi : List (List ℝ)} {w : List XR} {k : ℕ} (hk : k < phi.length) (hw : k < w.length)
    (hphi : ∀ a, (phi[k]).getD a 0 = 0) (hnan : (w[k]).mul (.fin 0) = .nan) {r c : ℕ} (hr : r ∈ free) (hc : c ∈ free) :
    cotEntry free phi w r c = .nan := by
  unfold cotEntry remap
  simp only [hr, hc, if_true]
  apply foldr_nan
  rw [List.mem_map]
  refine ⟨(w[k], phi[k]), ?_, ?_⟩
  · rw [List.mem_iff_getElem]
    exact ⟨k, by simp [hk, hw], by simp⟩
  · simp only [hphi, hnan]
    rfl

/-- **C105** (violation). When fewer positive factors exist than were requested, the padding row (infinite
factor, zero mode, see `C104_returned`) turns the whole gradient of the host solvers into NaN: every
stored entry between two free DOFs gets NaN in both cotangents, whatever the incoming cotangent, even one
that only looks at the first, found, factor. -/
theorem C105_missing_mode_nan {K Kg : CSRMatrix ℝ} {free : List ℕ} {modes : List Mode} {lamBar : List ℝ}
    (hbar : lamBar.length = modes.length) {k : ℕ} (hk : k < modes.length) (hinf : (modes[k]).lam = .pinf)
    (hzero : ∀ a, (modes[k]).phi.getD a 0 = 0) :
    (∀ s (hs : s < K.indices.length) (hs' : s < K.rowOfSlot.length), K.rowOfSlot[s] ∈ free → K.indices[s] ∈ free →
      (hostBwd free K Kg modes lamBar).1[s]? = some .nan) ∧
    (∀ s (hs : s < Kg.indices.length) (hs' : s < Kg.rowOfSlot.length), Kg.rowOfSlot[s] ∈ free → Kg.indices[s] ∈ free →
      (hostBwd free K Kg modes lamBar).2[s]? = some .nan) := by
  unfold hostBwd outerCotangent
  refine ⟨?_, ?_⟩
  · intro s hs hs' hr hc
    rw [List.getElem?_eq_getElem (by simp [hs, hs']), List.getElem_zipWith]
    congr 1
    refine cot_nan (k := k) (by simpa using hk) (by simp [hbar, hk]) (by simpa using hzero) ?_ hr hc
    rw [List.getElem_zipWith, hinf]
    exact (inf_zero _).1
  · intro s hs hs' hr hc
    rw [List.getElem?_eq_getElem (by simp [hs, hs']), List.getElem_zipWith]
    congr 1
    refine cot_nan (k := k) (by simpa using hk) (by simp [hbar, hk]) (by simpa using hzero) ?_ hr hc
    rw [List.getElem_zipWith, hinf]
    exact (inf_zero _).2

/-- The factor of a found mode, zero for a padding row. -/
def lamOrZero : XR → ℝ
  | .fin x => x
  | _ => 0

/-- **C105.** The `cudss` solver guards the padding: with any mixture of found and padded modes its
cotangents are finite and pair to the sum over the found modes alone. -/
theorem C105_cudss_guarded {K Kg : CSRMatrix ℝ} (hK : CSRWF K) (hG : CSRWF Kg) {free : List ℕ} (hn : free.Nodup)
    (hr : ∀ i ∈ free, i < K.numRows ∧ i < K.numCols ∧ i < Kg.numRows ∧ i < Kg.numCols)
    {modes : List Mode} {lamBar dK dG : List ℝ}
    (hbar : lamBar.length = modes.length) (hdK : dK.length = K.indices.length) (hdG : dG.length = Kg.indices.length) :
    ∃ cK cG : List ℝ, cudssBwd free K Kg modes lamBar = (cK.map .fin, cG.map .fin) ∧
      cK.length = K.indices.length ∧ cG.length = Kg.indices.length ∧
      (List.zipWith (· * ·) cK dK).sum + (List.zipWith (· * ·) cG dG).sum =
        ∑ k ∈ Finset.range modes.length, lamBar.getD k 0 *
          (((modes.map (fun md => lamOrZero md.lam)).getD k 0) *
              kProd (K.withData dK) free (phiVec free ((modes.map (·.phi)).getD k []))
                (phiVec free ((modes.map (·.phi)).getD k [])) +
            ((modes.map (fun md => lamOrZero md.lam)).getD k 0) ^ 2 *
              kProd (Kg.withData dG) free (phiVec free ((modes.map (·.phi)).getD k []))
                (phiVec free ((modes.map (·.phi)).getD k []))) := by
  set lams := modes.map (fun md => lamOrZero md.lam) with hlams
  have hll : lams.length = modes.length := by simp [hlams]
  have hw : List.zipWith (fun b (md : Mode) => if md.lam.isFin then (XR.fin b).mul md.lam else .fin 0) lamBar modes =
      (List.zipWith (fun b l => b * l) lamBar lams).map .fin := by
    apply List.ext_getElem (by simp [hbar, hll])
    intro k h1 h2
    have hk : k < modes.length := by simp [hbar] at h1; exact h1
    rw [List.getElem_zipWith, List.getElem_map, List.getElem_zipWith]
    simp only [hlams, List.getElem_map]
    cases modes[k].lam <;> simp [XR.isFin, XR.mul, lamOrZero]
  have hw2 : List.zipWith (fun b (md : Mode) => if md.lam.isFin then ((XR.fin b).mul md.lam).mul md.lam else .fin 0)
      lamBar modes = (List.zipWith (fun b l => b * l * l) lamBar lams).map .fin := by
    apply List.ext_getElem (by simp [hbar, hll])
    intro k h1 h2
    have hk : k < modes.length := by simp [hbar] at h1; exact h1
    rw [List.getElem_zipWith, List.getElem_map, List.getElem_zipWith]
    simp only [hlams, List.getElem_map]
    cases modes[k].lam <;> simp [XR.isFin, XR.mul, lamOrZero]
  refine ⟨_, _, by unfold cudssBwd; rw [hw, hw2, outer_fin (by simp [hbar, hll]), outer_fin (by simp [hbar, hll])],
    by simp [hK.rows], by simp [hG.rows], ?_⟩
  rw [pair_all hK hn (fun i hi => ⟨(hr i hi).1, (hr i hi).2.1⟩) _ _ _ hdK,
    pair_all hG hn (fun i hi => (hr i hi).2.2) _ _ _ hdG]
  have hz1 : (List.zipWith (fun b l => b * l) lamBar lams).length = modes.length := by simp [hbar, hll]
  have hz2 : (List.zipWith (fun b l => b * l * l) lamBar lams).length = modes.length := by simp [hbar, hll]
  rw [hz1, hz2, ← Finset.sum_add_distrib]
  refine Finset.sum_congr rfl (fun k hk => ?_)
  rw [Finset.mem_range] at hk
  rw [List.getD_eq_getElem (List.zipWith (fun b l => b * l) lamBar lams) _ (by omega),
    List.getD_eq_getElem (List.zipWith (fun b l => b * l * l) lamBar lams) _ (by omega),
    List.getD_eq_getElem lamBar _ (by omega),
    List.getD_eq_getElem lams _ (by omega), List.getElem_zipWith, List.getElem_zipWith]
  ring

/-- A cluster of modes: unit-norm modes that share a factor; `q` mixes one orthonormal choice into another. -/
theorem mix_outer {ι : Type*} [Fintype ι] [DecidableEq ι] {q : Matrix ι ι ℝ} (hq : qᵀ * q = 1) (φ : ι → ℕ → ℝ) (a b : ℕ) :
    ∑ k, (∑ l, q k l * φ l a) * (∑ l, q k l * φ l b) = ∑ l, φ l a * φ l b := by
  have h1 : ∀ k, (∑ l, q k l * φ l a) * (∑ l, q k l * φ l b) = ∑ l, ∑ l', (q k l * q k l') * (φ l a * φ l' b) := by
    intro k
    rw [Finset.sum_mul_sum]
    exact Finset.sum_congr rfl (fun l _ => Finset.sum_congr rfl (fun l' _ => by ring))
  simp only [h1]
  rw [Finset.sum_comm]
  refine Finset.sum_congr rfl (fun l _ => ?_)
  rw [Finset.sum_comm]
  have h2 : ∀ l', ∑ k, q k l * q k l' * (φ l a * φ l' b) = if l = l' then φ l a * φ l' b else 0 := by
    intro l'
    rw [← Finset.sum_mul]
    have := congrFun (congrFun hq l) l'
    rw [Matrix.mul_apply, Matrix.one_apply] at this
    simp only [transpose_apply] at this
    rw [this]
    split <;> simp
  simp only [h2]
  simp

/-- **C105.** Repeated factors. If the incoming cotangent weighs the members of a cluster with one factor
equally, the contribution of the cluster to every cotangent entry does not depend on which orthonormal
basis of the cluster's modes the eigensolver happened to return. -/
theorem C105_cluster_invariant {free : List ℕ} {m : ℕ} {lam b : ℝ} (phi psi : Fin m → List ℝ) {q : Matrix (Fin m) (Fin m) ℝ}
    (hq : qᵀ * q = 1) (hmix : ∀ k a, (psi k).getD a 0 = ∑ l, q k l * (phi l).getD a 0) (r c : ℕ) :
    cotEntry free (List.ofFn psi) (List.replicate m ((XR.fin b).mul (.fin lam))) r c =
      cotEntry free (List.ofFn phi) (List.replicate m ((XR.fin b).mul (.fin lam))) r c := by
  have hrep : List.replicate m ((XR.fin b).mul (.fin lam)) = (List.replicate m (b * lam)).map .fin := by
    rw [List.map_replicate]; rfl
  rw [hrep, cotEntry_fin (by simp), cotEntry_fin (by simp)]
  congr 1
  unfold cotReal
  split
  · rw [List.length_replicate]
    have e : ∀ (f : Fin m → List ℝ), ∑ k ∈ Finset.range m, (List.replicate m (b * lam)).getD k 0 *
        ((List.ofFn f).getD k []).getD (free.idxOf r) 0 * ((List.ofFn f).getD k []).getD (free.idxOf c) 0 =
        (b * lam) * ∑ k : Fin m, (f k).getD (free.idxOf r) 0 * (f k).getD (free.idxOf c) 0 := by
      intro f
      rw [Finset.sum_range, Finset.mul_sum]
      refine Finset.sum_congr rfl (fun k _ => ?_)
      rw [List.getD_eq_getElem _ _ (by simp), List.getD_eq_getElem (List.ofFn f) _ (by simp), List.getElem_replicate,
        List.getElem_ofFn]
      ring
    rw [e, e]
    congr 1
    simp only [hmix]
    exact mix_outer hq (fun l a => (phi l).getD a 0) _ _
  · rfl

/-- Two unit springs softening alike: `(K + λ K_g)` vanishes at `λ = 1`. -/
theorem pair_mats : restrict (diagCsr [1, 1]) (List.range 2) = 1 ∧ restrict (diagCsr [-1, -1]) (List.range 2) = -1 := by
  refine ⟨?_, ?_⟩
  · rw [diagCsr_restrict _ 2 (by simp), ← diagonal_one]
    congr 1
    funext i
    exact List.getD_replicate (n := 2) (x := (1 : ℝ)) (y := 0) (by have := i.2; simpa using this)
  · rw [diagCsr_restrict _ 2 (by simp), ← diagonal_one, diagonal_neg]
    congr 1
    funext i
    exact List.getD_replicate (n := 2) (x := (-1 : ℝ)) (y := 0) (by have := i.2; simpa using this)

theorem pair_ok : BucklingOk (diagCsr [1, 1]) (diagCsr [-1, -1]) (List.range 2) :=
  diag_bucklingOk (by simp) (by simp) (by simp)

theorem pair_mode (x : Fin (List.range 2).length → ℝ) : BucklingMode (diagCsr [1, 1]) (diagCsr [-1, -1]) (List.range 2) 1 x := by
  rw [bucklingMode_iff, pair_mats.1, pair_mats.2]; simp [neg_mulVec]

/-- The two indices. -/
abbrev u0 : Fin (List.range 2).length := ⟨0, by simp⟩

abbrev u1 : Fin (List.range 2).length := ⟨1, by simp⟩

theorem two_cases (i : Fin (List.range 2).length) : i = u0 ∨ i = u1 := by
  have h : i.1 < 2 := by simpa using i.2
  rcases Nat.lt_or_ge i.1 1 with h1 | h1
  · exact Or.inl (Fin.ext (by show i.1 = 0; omega))
  · exact Or.inr (Fin.ext (by show i.1 = 1; omega))

theorem sum_two (f : Fin (List.range 2).length → ℝ) : ∑ i, f i = f u0 + f u1 := by
  have : (Finset.univ : Finset (Fin (List.range 2).length)) = {u0, u1} := by
    ext i; simpa using two_cases i
  rw [this, Finset.sum_pair (by simp)]

theorem pair_kProd (x y : Fin (List.range 2).length → ℝ) : kProd (diagCsr [1, 1]) (List.range 2) x y = x u0 * y u0 + x u1 * y u1 := by
  rw [kProd_eq, pair_mats.1, one_mulVec]
  exact sum_two (fun i => x i * y i)

/-- **C105** (violation). At a repeated factor the gradient of one member is not determined: two answers
of the eigensolver, both orthonormal bases of genuine modes with the same factors, give different
cotangents for the first factor. -/
theorem C105_degenerate_ambiguous :
    let free := List.range 2
    let K := diagCsr [1, 1]
    let Kg := diagCsr [-1, -1]
    let A : List Mode := [⟨.fin 1, [1, 0], [1, 0]⟩, ⟨.fin 1, [0, 1], [0, 1]⟩]
    let B : List Mode := [⟨.fin 1, [3/5, 4/5], [3/5, 4/5]⟩, ⟨.fin 1, [-4/5, 3/5], [-4/5, 3/5]⟩]
    (∀ md ∈ A ++ B, BucklingMode K Kg free 1 (phiVec free md.phi) ∧
      kProd K free (phiVec free md.phi) (phiVec free md.phi) = 1) ∧
    A.Pairwise (fun p q => kProd K free (phiVec free p.phi) (phiVec free q.phi) = 0) ∧
    B.Pairwise (fun p q => kProd K free (phiVec free p.phi) (phiVec free q.phi) = 0) ∧
    (hostBwd free K Kg A [1, 0]).1[0]? = some (.fin 1) ∧
    (hostBwd free K Kg B [1, 0]).1[0]? = some (.fin (9 / 25)) := by
  refine ⟨?_, ?_, ?_, ?_, ?_⟩
  · intro md hmd
    refine ⟨pair_mode _, ?_⟩
    rw [pair_kProd]
    simp only [List.cons_append, List.nil_append, List.mem_cons, List.not_mem_nil, or_false] at hmd
    rcases hmd with rfl | rfl | rfl | rfl <;> simp [phiVec] <;> norm_num
  · simp [pair_kProd, phiVec]
  · simp [pair_kProd, phiVec]; norm_num
  · unfold hostBwd outerCotangent
    rw [diagCsr_rows]
    simp [diagCsr, List.range_succ, cotEntry, remap, XR.mul, XR.add]
  · unfold hostBwd outerCotangent
    rw [diagCsr_rows]
    simp [diagCsr, List.range_succ, cotEntry, remap, XR.mul, XR.add]
    norm_num

/-- The hypotheses of `C105_missing_mode_nan` are met by what `bf` returns in the example of
`C104_sparse_misses`, and the loss there looks only at the first factor. -/
example : ∃ modes, solveHost (exEigOps idealEigs) (.sparse (some (1 / 100))) hidFree 2 hidK hidG = .ok modes ∧
    (hostBwd hidFree hidK hidG modes [1, 0]).1[0]? = some .nan := by
  obtain ⟨mode, hm⟩ := (C104_sparse_misses (exEigOps_spec _) hid_arpack (tol := 1 / 100) (by norm_num)).2.2.2.1
  refine ⟨finish hidK hidFree 2 [(1, mode)], by simp only [solveHost, hm]; rfl, ?_⟩
  have hlen : (finish hidK hidFree 2 [(1, mode)]).length = 2 := by simp [finish]
  refine (C105_missing_mode_nan (by rw [hlen]; rfl) (k := 1) (by rw [hlen]; norm_num) ?_ ?_).1 0 ?_ ?_ ?_ ?_
  · simp [finish]
  · intro a
    simp only [finish, List.map_cons, List.map_nil, List.length_cons, List.length_nil]
    by_cases ha : a < hidFree.length
    · simp [List.getD_eq_getElem _ _ (show a < (List.replicate hidFree.length (0:ℝ)).length by simpa using ha)]
    · simp [List.getD_eq_default _ _ (show (List.replicate hidFree.length (0:ℝ)).length ≤ a by simpa using ha)]
  · simp [hidK, diagCsr]
  · rw [hidK, diagCsr_rows]; simp
  · simp only [hidK, diagCsr_rows]; simp [hidFree]
  · simp [hidK, diagCsr, hidFree]

/-- The hypotheses of `C105_bwd` and `C105_cudss_guarded` are met. -/
example : CSRWF (diagCsr [1, 1]) ∧ (∀ i ∈ List.range 2, i < (diagCsr [1, 1]).numRows ∧ i < (diagCsr [1, 1]).numCols) ∧
    ([⟨.fin 1, [1, 0], [1, 0]⟩] : List Mode).map (·.lam) = [1].map .fin :=
  ⟨diagCsr_wf _, by simp [diagCsr], by simp⟩

/-! ## The closure -/

/-- What a user expects of one use of `bf`: the answer for the matrices given; nothing from tracing. -/
def expectedUse {R β : Type*} (solve : CSRMatrix R → CSRMatrix R → Except PyErr β) : Use R → Except PyErr (Option β)
  | .eager K Kg => (solve K Kg).map some
  | .run K Kg => (solve K Kg).map some
  | .trace _ _ => .ok none

/-- The matrices of a use have these patterns. -/
def UsePattern {R : Type*} (pK pG : Pattern) : Use R → Prop
  | .eager K Kg => patternOf K = pK ∧ patternOf Kg = pG
  | .run K Kg => patternOf K = pK ∧ patternOf Kg = pG
  | .trace K Kg => patternOf K = pK ∧ patternOf Kg = pG

theorem withData_pattern {R : Type*} (M : CSRMatrix R) : (patternOf M).withData M.data = M := rfl

theorem use_constant {R β : Type*} (solve : CSRMatrix R → CSRMatrix R → Except PyErr β) {pK pG : Pattern}
    (us : List (Use R)) (hus : ∀ u ∈ us, UsePattern pK pG u) :
    (useAll solve (some (pK, pG)) us).2 = us.map (expectedUse solve) := by
  induction us with
  | nil => rfl
  | cons u us ih =>
    have hu := hus u (by simp)
    have ht := ih (fun v hv => hus v (by simp [hv]))
    cases u with
    | eager K Kg =>
      obtain ⟨h1, h2⟩ := hu
      simp only [useAll, useBf, List.map_cons, expectedUse, withData_pattern, h1, h2]
      rw [← h1, ← h2, withData_pattern, withData_pattern, h1, h2, ht]
    | trace K Kg => simp only [useAll, useBf, List.map_cons, expectedUse, ht]
    | run K Kg =>
      obtain ⟨h1, h2⟩ := hu
      simp only [useAll, useBf, List.map_cons, expectedUse, ht]
      rw [← h1, ← h2, withData_pattern, withData_pattern]

/-- **C106.** As long as the sparsity never changes: once `bf` has been called eagerly, every later use, in
any order and number, eager or compiled, returns the answer for the matrices it was given; before any
eager call, tracing raises ValueError and leaves the closure as it was. -/
theorem C106_constant_pattern {R β : Type*} (solve : CSRMatrix R → CSRMatrix R → Except PyErr β) (K Kg : CSRMatrix R)
    (us : List (Use R)) (hus : ∀ u ∈ us, UsePattern (patternOf K) (patternOf Kg) u) (K' Kg' : CSRMatrix R) :
    (useAll solve none (.eager K Kg :: us)).2 = (.eager K Kg :: us).map (expectedUse solve) ∧
    useBf solve none (.trace K' Kg') = (none, .error .valueError) := by
  refine ⟨?_, rfl⟩
  simp only [useAll, useBf, List.map_cons, expectedUse, withData_pattern]
  rw [use_constant solve us hus]

/-- **C106.** Eager use alone is right whatever the patterns: each call replaces the captured one. -/
theorem C106_eager_any_pattern {R β : Type*} (solve : CSRMatrix R → CSRMatrix R → Except PyErr β) (s : Cache)
    (us : List (CSRMatrix R × CSRMatrix R)) :
    (useAll solve s (us.map (fun p => .eager p.1 p.2))).2 = us.map (fun p => (solve p.1 p.2).map some) := by
  induction us generalizing s with
  | nil => rfl
  | cons p ps ih =>
    simp only [List.map_cons, useAll, useBf, withData_pattern]
    rw [ih]

/-- A geometric stiffness with the same number of entries elsewhere: `[[0, -1], [-1, 0]]`. -/
noncomputable def crossG : CSRMatrix ℝ := ⟨[-1, -1], [0, 1, 2], [1, 0], 2, 2⟩

theorem crossG_dense : restrict crossG (List.range 2) = fun i j => if i = j then 0 else -1 := by
  ext i j
  have hr : crossG.rowOfSlot = [0, 1] := by
    simp [CSRMatrix.rowOfSlot, crossG, repeatByPtr, List.range_succ]
  unfold restrict CSRMatrix.todense
  rw [hr]
  have hi := two_cases i
  have hj := two_cases j
  rcases hi with rfl | rfl <;> rcases hj with rfl | rfl <;> simp [crossG]

theorem cross_ok : BucklingOk (diagCsr [1, 1]) crossG (List.range 2) where
  nodup := List.nodup_range
  range := by simp [diagCsr]
  spd := pair_ok.spd
  sym := by
    rw [crossG_dense]
    ext i j
    show (if j = i then (0 : ℝ) else -1) = if i = j then 0 else -1
    simp only [eq_comm]

/-- The right answer has the factor one twice; with the other pattern it comes once. -/
theorem cross_counts {ops : EigOps} (hops : EigSpec ops) :
    (denseBuckling ops (diagCsr [1, 1]) (diagCsr [-1, -1]) (List.range 2) 2 denseTol).length = 2 ∧
    (denseBuckling ops (diagCsr [1, 1]) crossG (List.range 2) 2 denseTol).length < 2 := by
  refine ⟨?_, ?_⟩
  · obtain ⟨d1, d2, d3, d4⟩ := C104_dense hops pair_ok 2 (tol := denseTol) (by norm_num [denseTol])
    set out := denseBuckling ops (diagCsr [1, 1]) (diagCsr [-1, -1]) (List.range 2) 2 denseTol
    by_contra hne
    match hout : out with
    | [] => exact hne (d4 1 (fun _ => 1) (by norm_num [denseTol]) (fun h => by
        have := congrFun h u0; norm_num at this) (pair_mode _) (by simp)).1
    | [p] =>
      obtain ⟨-, -, -, -, q3⟩ := d2 p (by simp)
      rw [pair_kProd] at q3
      set x := onFree (List.range 2) p.2
      let y : Fin (List.range 2).length → ℝ := fun i => if i = u0 then -(x u1) else x u0
      have hy0 : y u0 = -(x u1) := by simp [y]
      have hy1 : y u1 = x u0 := by simp [y, u0, u1]
      refine hne (d4 1 y (by norm_num [denseTol]) (fun h => ?_) (pair_mode _) (by
        intro p' hp'
        rw [List.mem_singleton.1 hp', pair_kProd, hy0, hy1]
        ring)).1
      have e0 : y u0 = 0 := congrFun h u0
      have e1 : y u1 = 0 := congrFun h u1
      rw [hy0] at e0
      rw [hy1] at e1
      rw [e1, neg_eq_zero.1 e0] at q3
      norm_num at q3
    | [p, q] => exact hne rfl
    | _ :: _ :: _ :: _ => simp at d1
  · obtain ⟨d1, d2, d3, -⟩ := C104_dense hops cross_ok 2 (tol := denseTol) (by norm_num [denseTol])
    set out := denseBuckling ops (diagCsr [1, 1]) crossG (List.range 2) 2 denseTol
    -- every mode has equal components
    have hmode : ∀ p ∈ out, onFree (List.range 2) p.2 u0 = onFree (List.range 2) p.2 u1 ∧ onFree (List.range 2) p.2 u0 ≠ 0 := by
      intro p hp
      obtain ⟨q1, -, -, q2, q3⟩ := d2 p hp
      rw [pair_kProd] at q3
      rw [bucklingMode_iff, pair_mats.1, crossG_dense] at q2
      set x := onFree (List.range 2) p.2
      have hs : ∀ f : Fin (List.range 2).length → ℝ, ∑ i, f i = f u0 + f u1 := sum_two
      have e0 := congrFun q2 u0
      have e1 := congrFun q2 u1
      simp only [Pi.add_apply, Pi.smul_apply, one_mulVec, mulVec, dotProduct, hs, smul_eq_mul, Pi.zero_apply] at e0 e1
      have h01 : u0 ≠ u1 := by decide
      simp only [h01, h01.symm, if_true, if_false] at e0 e1
      have hpos : 0 < p.1 := lt_trans (by norm_num [denseTol]) q1
      have a0 : x u0 = p.1 * x u1 := by linarith
      have a1 : x u1 = p.1 * x u0 := by linarith
      have hsum : (x u0 - x u1) * (1 + p.1) = 0 := by linear_combination a0 - a1
      have h2 : x u0 - x u1 = 0 := (mul_eq_zero.1 hsum).resolve_right (by positivity)
      refine ⟨by linarith, ?_⟩
      intro h0
      have : x u1 = 0 := by linarith
      rw [h0, this] at q3
      norm_num at q3
    by_contra hge
    match hout : out with
    | [] => simp at hge
    | [p] => simp at hge
    | p :: q :: t =>
      have h1 := hmode p (by simp)
      have h2 := hmode q (by simp)
      have h3 := ((List.pairwise_cons.1 d3).1 q (by simp)).2
      rw [pair_kProd, ← h1.1, ← h2.1] at h3
      have : onFree (List.range 2) p.2 u0 * onFree (List.range 2) q.2 u0 = 0 := by linarith
      rcases mul_eq_zero.1 this with h | h
      · exact h1.2 h
      · exact h2.2 h

/-- The factors found, as `bf` would see them. -/
noncomputable def countDense (ops : EigOps) (K Kg : CSRMatrix ℝ) : Except PyErr ℕ :=
  .ok (denseBuckling ops K Kg (List.range 2) 2 denseTol).length

/-- **C106** (violation). A compiled `bf` reads the pattern of whatever matrix `bf` was last called with
eagerly: compile it for one operator, call it eagerly on another of the same size and number of entries,
and the compiled function now answers for a matrix nobody assembled, here losing a factor, with no error. -/
theorem C106_stale_pattern {ops : EigOps} (hops : EigSpec ops) :
    ∃ wrong, (useAll (countDense ops) none
        [.eager (diagCsr [1, 1]) (diagCsr [-1, -1]), .run (diagCsr [1, 1]) (diagCsr [-1, -1]),
          .eager (diagCsr [1, 1]) crossG, .run (diagCsr [1, 1]) (diagCsr [-1, -1])]).2 =
      [.ok (some 2), .ok (some 2), .ok (some wrong), .ok (some wrong)] ∧ wrong < 2 := by
  obtain ⟨h1, h2⟩ := cross_counts hops
  refine ⟨_, ?_, h2⟩
  have hsw : (patternOf crossG).withData (diagCsr [-1, -1]).data = crossG := rfl
  simp only [useAll, useBf, withData_pattern, hsw, countDense, h1, Except.map]

/-- **C106** (violation). The `cudss` closure keeps the pattern of its first call for ever: a second eager
call with another pattern is answered for a matrix nobody assembled. -/
theorem C106_cudss_first_pattern {ops : EigOps} (hops : EigSpec ops) :
    let s1 := (useCudss (countDense ops) none (diagCsr [1, 1]) crossG).1
    (useCudss (countDense ops) none (diagCsr [1, 1]) (diagCsr [-1, -1])).2 = .ok 2 ∧
    ∃ wrong, (useCudss (countDense ops) s1 (diagCsr [1, 1]) (diagCsr [-1, -1])).2 = .ok wrong ∧ wrong < 2 := by
  obtain ⟨h1, h2⟩ := cross_counts hops
  refine ⟨?_, _, ?_, h2⟩
  · simp only [useCudss, withData_pattern, countDense, h1]
  · have hsw : (patternOf crossG).withData (diagCsr [-1, -1]).data = crossG := rfl
    simp only [useCudss, withData_pattern, countDense, hsw]

/-! ## The Arnoldi iteration -/

theorem vdot_comm {n : ℕ} (x y : Fin n → ℝ) : vdot x y = vdot y x := by
  simp [vdot, mul_comm]

theorem vdot_zero {n : ℕ} (x : Fin n → ℝ) : vdot x 0 = 0 := by simp [vdot]

theorem zero_vdot {n : ℕ} (x : Fin n → ℝ) : vdot 0 x = 0 := by simp [vdot]

theorem vdot_add {n : ℕ} (x y z : Fin n → ℝ) : vdot x (y + z) = vdot x y + vdot x z := by
  simp [vdot, mul_add, Finset.sum_add_distrib]

theorem vdot_sub {n : ℕ} (x y z : Fin n → ℝ) : vdot x (y - z) = vdot x y - vdot x z := by
  simp [vdot, mul_sub, Finset.sum_sub_distrib]

theorem vdot_smul {n : ℕ} (x y : Fin n → ℝ) (c : ℝ) : vdot x (c • y) = c * vdot x y := by
  simp only [vdot, Pi.smul_apply, smul_eq_mul, Finset.mul_sum]
  exact Finset.sum_congr rfl (fun i _ => by ring)

theorem vdot_sum {n : ℕ} {ι : Type*} (s : Finset ι) (x : Fin n → ℝ) (f : ι → Fin n → ℝ) :
    vdot x (∑ k ∈ s, f k) = ∑ k ∈ s, vdot x (f k) := by
  induction s using Finset.cons_induction with
  | empty => simp [vdot_zero]
  | cons a s ha ih => rw [Finset.sum_cons, Finset.sum_cons, vdot_add, ih]

theorem vdot_self {n : ℕ} (x : Fin n → ℝ) : vdot x x = vnorm x ^ 2 := by
  rw [vnorm, Real.sq_sqrt (Finset.sum_nonneg (fun i _ => sq_nonneg _))]
  simp [vdot, pow_two]

theorem vdot_self_eq_zero {n : ℕ} {x : Fin n → ℝ} (h : vdot x x = 0) : x = 0 := by
  unfold vdot at h
  rw [Finset.sum_eq_zero_iff_of_nonneg (fun i _ => mul_self_nonneg _)] at h
  funext i
  simpa using h i (Finset.mem_univ i)

theorem vnorm_toLp {n : ℕ} (x : Fin n → ℝ) : vnorm x = ‖WithLp.toLp 2 x‖ := by
  rw [EuclideanSpace.norm_eq, vnorm]
  congr 1
  exact Finset.sum_congr rfl (fun i _ => by rw [Real.norm_eq_abs, sq_abs])

theorem vnorm_add_le {n : ℕ} (x y : Fin n → ℝ) : vnorm (x + y) ≤ vnorm x + vnorm y := by
  rw [vnorm_toLp, vnorm_toLp, vnorm_toLp, WithLp.toLp_add]
  exact norm_add_le _ _

theorem vnorm_smul {n : ℕ} (c : ℝ) (x : Fin n → ℝ) : vnorm (c • x) = |c| * vnorm x := by
  rw [vnorm_toLp, vnorm_toLp, WithLp.toLp_smul, norm_smul, Real.norm_eq_abs]

theorem vnorm_sum_le {n : ℕ} (m : ℕ) (f : ℕ → Fin n → ℝ) :
    vnorm (∑ k ∈ Finset.range m, f k) ≤ ∑ k ∈ Finset.range m, vnorm (f k) := by
  induction m with
  | zero => simp [vnorm_zero]
  | succ m ih =>
    rw [Finset.sum_range_succ, Finset.sum_range_succ]
    exact (vnorm_add_le _ _).trans (by linarith)

/-- The new row is a unit vector or zero; zero only when what is left is at most `1e-30` long. -/
theorem nextRow_spec {n : ℕ} (w : Fin n → ℝ) :
    (vdot (nextRow w) (nextRow w) = 1 ∧ vnorm w • nextRow w = w) ∨ (nextRow w = 0 ∧ vnorm w ≤ 1 / 10 ^ 30) := by
  unfold nextRow
  split_ifs with h
  · left
    have hp : 0 < vnorm w := lt_trans (by positivity) h
    refine ⟨?_, ?_⟩
    · rw [vdot_smul, vdot_comm, vdot_smul, vdot_self]
      field_simp
    · rw [smul_smul, mul_one_div_cancel hp.ne', one_smul]
  · right
    exact ⟨zero_smul _ _, not_lt.1 h⟩

theorem nextRow_dot {n : ℕ} {x w : Fin n → ℝ} (h : vdot x w = 0) : vdot x (nextRow w) = 0 := by
  rw [nextRow, vdot_smul, h, mul_zero]

/-- Row `i` of `V`. -/
def rowV {n : ℕ} (V : List (Fin n → ℝ)) (i : ℕ) : Fin n → ℝ := V.getD i 0

theorem vcomb_map {n : ℕ} (V : List (Fin n → ℝ)) (f : (Fin n → ℝ) → ℝ) :
    vcomb V (V.map f) = ∑ k ∈ Finset.range V.length, f (rowV V k) • rowV V k := by
  have h : List.zipWith (fun a v => a • v) (V.map f) V = V.map (fun v => f v • v) := by
    induction V with
    | nil => rfl
    | cons a V ih => simp [ih]
  rw [vcomb, h]
  clear h
  induction V using List.reverseRecOn with
  | nil => simp
  | append_singleton V a ih =>
    rw [List.map_append, List.sum_append, List.length_append, List.length_singleton, Finset.sum_range_succ]
    have e1 : rowV (V ++ [a]) V.length = a := by simp [rowV]
    rw [e1]
    have e2 : ∀ k ∈ Finset.range V.length, f (rowV (V ++ [a]) k) • rowV (V ++ [a]) k = f (rowV V k) • rowV V k := by
      intro k hk
      have : rowV (V ++ [a]) k = rowV V k := by
        simp only [rowV]
        rw [List.getD_append _ _ _ _ (Finset.mem_range.1 hk)]
      rw [this]
    rw [Finset.sum_congr rfl e2, ← ih]
    simp

/-- What holds of the rows and the matrix after `m` steps. -/
structure ArnoldiInv {n : ℕ} (T : (Fin n → ℝ) → (Fin n → ℝ)) (m : ℕ) (V : List (Fin n → ℝ)) (H : List (List ℝ)) :
    Prop where
  len : V.length = m + 1
  lenH : H.length = m
  unit : ∀ i ≤ m, vdot (rowV V i) (rowV V i) = 1 ∨ rowV V i = 0
  orth : ∀ i ≤ m, ∀ j ≤ m, i ≠ j → vdot (rowV V i) (rowV V j) = 0
  proj : ∀ j < m, ∀ i ≤ j, hess H i j = vdot (rowV V i) (T (rowV V j))
  low : ∀ j < m, ∀ i, j + 1 < i → hess H i j = 0
  next : ∀ j < m, ∃ w, T (rowV V j) = (∑ i ∈ Finset.range (j + 1), hess H i j • rowV V i) + w ∧
    hess H (j + 1) j = vnorm w ∧ rowV V (j + 1) = nextRow w

theorem arnoldi_inv {n : ℕ} (T : (Fin n → ℝ) → (Fin n → ℝ)) {v0 : Fin n → ℝ} (hv0 : v0 ≠ 0) (m : ℕ) :
    ArnoldiInv T m (arnoldi T v0 m).1 (arnoldi T v0 m).2 ∧ rowV (arnoldi T v0 m).1 0 = (1 / vnorm v0) • v0 := by
  induction m with
  | zero =>
    have hpos : 0 < vnorm v0 := by
      rcases (vnorm_nonneg v0).lt_or_eq with h | h
      · exact h
      · exact absurd (vdot_self_eq_zero (by rw [vdot_self, ← h]; norm_num)) hv0
    have hr : rowV (arnoldi T v0 0).1 0 = (1 / vnorm v0) • v0 := rfl
    refine ⟨⟨rfl, rfl, ?_, ?_, by omega, by omega, by omega⟩, hr⟩
    · intro i hi
      left
      rw [Nat.le_zero.1 hi, hr, vdot_smul, vdot_comm, vdot_smul, vdot_self]
      field_simp
    · intro i hi j hj hij
      omega
  | succ m ih =>
    obtain ⟨I, hz⟩ := ih
    have hstep : arnoldi T v0 (m + 1) = arnoldiStep T (arnoldi T v0 m) := by
      unfold arnoldi; rw [Function.iterate_succ_apply']
    rw [hstep]
    set V := (arnoldi T v0 m).1 with hV
    set H := (arnoldi T v0 m).2 with hH
    have hlast : V.getLastD 0 = rowV V m := by
      rw [List.getLastD_eq_getLast?, List.getLast?_eq_getElem?, I.len, Nat.add_sub_cancel, rowV, List.getD_eq_getElem?_getD]
    set w := T (rowV V m) with hw
    -- one pass of Gram-Schmidt is enough
    have hgs : ∀ i ≤ m, vdot (rowV V i) (w - vcomb V (V.map (fun v => vdot v w))) = 0 := by
      intro i hi
      rw [vdot_sub, vcomb_map, vdot_sum, I.len]
      rw [Finset.sum_eq_single i]
      · rw [vdot_smul]
        rcases I.unit i hi with h | h
        · rw [h]; ring
        · rw [h, zero_vdot]; ring
      · intro k hk hki
        rw [vdot_smul, I.orth i hi k (by have := Finset.mem_range.1 hk; omega) (Ne.symm hki), mul_zero]
      · intro h; exact absurd (Finset.mem_range.2 (by omega)) h
    set w1 := w - vcomb V (V.map (fun v => vdot v w)) with hw1
    have hmem : ∀ v ∈ V, vdot v w1 = 0 := by
      intro v hv
      obtain ⟨i, hi, rfl⟩ := List.mem_iff_getElem.1 hv
      have := hgs i (by have := I.len; omega)
      rwa [rowV, List.getD_eq_getElem _ _ hi] at this
    have hh2 : V.map (fun v => vdot v w1) = V.map (fun _ => (0 : ℝ)) := List.map_congr_left hmem
    have hw2 : w1 - vcomb V (V.map (fun v => vdot v w1)) = w1 := by
      rw [hh2, vcomb_map]; simp
    have hh : List.zipWith (· + ·) (V.map (fun v => vdot v w)) (V.map (fun v => vdot v w1)) = V.map (fun v => vdot v w) := by
      rw [hh2]
      rw [List.zipWith_map_left, List.zipWith_map_right, List.zipWith_self]
      simp
    have hres : arnoldiStep T (arnoldi T v0 m) = (V ++ [nextRow w1], H ++ [V.map (fun v => vdot v w) ++ [vnorm w1]]) := by
      unfold arnoldiStep
      simp only [← hV, ← hH, hlast, ← hw, ← hw1, hw2, hh]
    rw [hres]
    have rold : ∀ i ≤ m, rowV (V ++ [nextRow w1]) i = rowV V i := by
      intro i hi
      simp only [rowV]
      rw [List.getD_append _ _ _ _ (by have := I.len; omega)]
    have rnew : rowV (V ++ [nextRow w1]) (m + 1) = nextRow w1 := by
      simp only [rowV]
      rw [List.getD_append_right _ _ _ _ (by have := I.len; omega), I.len]; simp
    have hold : ∀ j < m, ∀ i, hess (H ++ [V.map (fun v => vdot v w) ++ [vnorm w1]]) i j = hess H i j := by
      intro j hj i
      simp only [hess]
      rw [List.getD_append _ _ _ _ (by rw [I.lenH]; exact hj)]
    have hcol : ∀ i, hess (H ++ [V.map (fun v => vdot v w) ++ [vnorm w1]]) i m = (V.map (fun v => vdot v w) ++ [vnorm w1]).getD i 0 := by
      intro i
      simp only [hess]
      rw [List.getD_append_right _ _ _ _ (by rw [I.lenH]), I.lenH]; simp
    have hcol1 : ∀ i ≤ m, hess (H ++ [V.map (fun v => vdot v w) ++ [vnorm w1]]) i m = vdot (rowV V i) w := by
      intro i hi
      have hl : i < V.length := by have := I.len; omega
      rw [hcol, List.getD_append _ _ _ _ (by simpa using hl), List.getD_eq_getElem _ _ (by simpa using hl), List.getElem_map,
        rowV, List.getD_eq_getElem _ _ hl]
    refine ⟨⟨?_, ?_, ?_, ?_, ?_, ?_, ?_⟩, ?_⟩
    · simp [I.len]
    · simp [I.lenH]
    · intro i hi
      rcases Nat.lt_or_ge m i with h | h
      · have : i = m + 1 := by omega
        rw [this, rnew]
        rcases nextRow_spec w1 with h' | h'
        · exact Or.inl h'.1
        · exact Or.inr h'.1
      · rw [rold i h]; exact I.unit i h
    · intro i hi j hj hij
      rcases Nat.lt_or_ge m i with h | h
      · have hi' : i = m + 1 := by omega
        rw [hi', rnew, rold j (by omega), vdot_comm]
        exact nextRow_dot (hgs j (by omega))
      · rcases Nat.lt_or_ge m j with h' | h'
        · have hj' : j = m + 1 := by omega
          rw [hj', rnew, rold i h]
          exact nextRow_dot (hgs i h)
        · rw [rold i h, rold j h']; exact I.orth i h j h' hij
    · intro j hj i hi
      rcases Nat.lt_or_ge j m with h | h
      · rw [hold j h, rold i (by omega), rold j h.le]; exact I.proj j h i hi
      · have hj' : j = m := by omega
        rw [hj', hcol1 i (by omega), rold i (by omega), rold m le_rfl]
    · intro j hj i hi
      rcases Nat.lt_or_ge j m with h | h
      · rw [hold j h]; exact I.low j h i hi
      · have hj' : j = m := by omega
        rw [hj', hcol, List.getD_eq_default]
        simp [I.len]; omega
    · intro j hj
      rcases Nat.lt_or_ge j m with h | h
      · obtain ⟨w', h1, h2, h3⟩ := I.next j h
        refine ⟨w', ?_, ?_, ?_⟩
        · rw [rold j h.le, h1]
          congr 1
          refine Finset.sum_congr rfl (fun i hi => ?_)
          rw [hold j h, rold i (by have := Finset.mem_range.1 hi; omega)]
        · rw [hold j h]; exact h2
        · rw [rold (j + 1) h]; exact h3
      · have hj' : j = m := by omega
        subst hj'
        refine ⟨w1, ?_, ?_, rnew⟩
        · rw [rold j le_rfl, ← hw]
          have : ∑ i ∈ Finset.range (j + 1), hess (H ++ [V.map (fun v => vdot v w) ++ [vnorm w1]]) i j • rowV (V ++ [nextRow w1]) i
              = vcomb V (V.map (fun v => vdot v w)) := by
            rw [vcomb_map, I.len]
            refine Finset.sum_congr rfl (fun i hi => ?_)
            have := Finset.mem_range.1 hi
            rw [hcol1 i (by omega), rold i (by omega)]
          rw [this, hw1]; abel
        · rw [hcol, List.getD_append_right _ _ _ _ (by simp [I.len])]
          simp [I.len]
    · rw [rold 0 (Nat.zero_le _)]; exact hz

/-- **C107.** Whatever the operator, however many steps: the rows the iteration builds are orthogonal, each a unit
vector or zero, the first the normalised start; and the operator maps row `j` to the combination of
the rows up to `j + 1` with column `j` of the matrix as coefficients, up to a remainder of length at most
`1e-30`, which is zero unless row `j + 1` broke down to zero. -/
theorem C107_arnoldi {n : ℕ} (T : (Fin n → ℝ) → (Fin n → ℝ)) {v0 : Fin n → ℝ} (hv0 : v0 ≠ 0) (m : ℕ) :
    let V := (arnoldi T v0 m).1
    let H := (arnoldi T v0 m).2
    V.length = m + 1 ∧ rowV V 0 = (1 / vnorm v0) • v0 ∧
    (∀ i ≤ m, vdot (rowV V i) (rowV V i) = 1 ∨ rowV V i = 0) ∧
    (∀ i ≤ m, ∀ j ≤ m, i ≠ j → vdot (rowV V i) (rowV V j) = 0) ∧
    (∀ j < m, ∀ i, j + 1 < i → hess H i j = 0) ∧
    ∀ j < m, ∃ r, T (rowV V j) = (∑ i ∈ Finset.range (j + 2), hess H i j • rowV V i) + r ∧
      vnorm r ≤ 1 / 10 ^ 30 ∧ (rowV V (j + 1) ≠ 0 → r = 0) := by
  obtain ⟨I, hz⟩ := arnoldi_inv T hv0 m
  refine ⟨I.len, hz, I.unit, I.orth, I.low, ?_⟩
  intro j hj
  obtain ⟨w, h1, h2, h3⟩ := I.next j hj
  rcases nextRow_spec w with ⟨-, h⟩ | ⟨h, h'⟩
  · refine ⟨0, ?_, by rw [vnorm_zero]; positivity, fun _ => rfl⟩
    rw [Finset.sum_range_succ, h2, h3, h, add_zero]; exact h1
  · refine ⟨w, ?_, h', fun hne => absurd (h3.trans h) hne⟩
    rw [Finset.sum_range_succ, h3, h, smul_zero, add_zero]; exact h1

/-- The start vector's first row is not zero. -/
theorem arnoldi_first {n : ℕ} (T : (Fin n → ℝ) → (Fin n → ℝ)) {v0 : Fin n → ℝ} (hv0 : v0 ≠ 0) (m : ℕ) :
    rowV (arnoldi T v0 m).1 0 ≠ 0 := by
  rw [(arnoldi_inv T hv0 m).2]
  have : vnorm v0 ≠ 0 := fun h => hv0 (vdot_self_eq_zero (by rw [vdot_self, h]; norm_num))
  exact smul_ne_zero (one_div_ne_zero this) hv0

/-- `coeff @ V` (`/repo/feax/solvers/eigen.py:535`): the Ritz vector of coefficients `y`. -/
noncomputable def ritzVector {n : ℕ} (V : List (Fin n → ℝ)) (m : ℕ) (y : ℕ → ℝ) : Fin n → ℝ :=
  ∑ j ∈ Finset.range m, y j • rowV V j

/-- **C107.** A Ritz pair is as good as its last coefficient says: when `(μ, y)` is an eigenpair of the `m × m` matrix,
`x = yᵀ V` satisfies `T x = μ x` up to `|h_{m,m-1} y_{m-1}|` (and the breakdown tolerance); and with as many steps as
free DOFs the first term is gone. A Ritz vector of a nonzero value is never zero. -/
theorem C107_ritz {n : ℕ} (T : Matrix (Fin n) (Fin n) ℝ) {v0 : Fin n → ℝ} (hv0 : v0 ≠ 0) {m : ℕ} (μ : ℝ) (y : ℕ → ℝ)
    (hy : ∀ i ≤ m, ∑ j ∈ Finset.range (m + 1), hess (arnoldi (T *ᵥ ·) v0 (m + 1)).2 i j * y j = μ * y i) :
    let V := (arnoldi (T *ᵥ ·) v0 (m + 1)).1
    let H := (arnoldi (T *ᵥ ·) v0 (m + 1)).2
    let x := ritzVector V (m + 1) y
    vnorm (T *ᵥ x - μ • x) ≤ |hess H (m + 1) m * y m| + (∑ j ∈ Finset.range (m + 1), |y j|) / 10 ^ 30 ∧
    (m + 1 = n → vnorm (T *ᵥ x - μ • x) ≤ (∑ j ∈ Finset.range (m + 1), |y j|) / 10 ^ 30) ∧
    (μ ≠ 0 → (∃ j ≤ m, y j ≠ 0) → x ≠ 0) := by
  obtain ⟨hlen, hfirst, hunit, horth, hlow, hrel⟩ := C107_arnoldi (T *ᵥ ·) hv0 (m + 1)
  obtain ⟨I, -⟩ := arnoldi_inv (T *ᵥ ·) hv0 (m + 1)
  have hne0 := arnoldi_first (T *ᵥ ·) hv0 (m + 1)
  intro V H x
  choose! r hr using hrel
  -- the residual
  have hres : T *ᵥ x - μ • x = (hess H (m + 1) m * y m) • rowV V (m + 1) + ∑ j ∈ Finset.range (m + 1), y j • r j := by
    have h1 : T *ᵥ x = ∑ j ∈ Finset.range (m + 1), y j • (T *ᵥ rowV V j) := by
      simp only [x, ritzVector]
      rw [Matrix.mulVec_sum]
      exact Finset.sum_congr rfl (fun j _ => Matrix.mulVec_smul _ _ _)
    have h2 : ∀ j ∈ Finset.range (m + 1), y j • (T *ᵥ rowV V j) =
        (∑ i ∈ Finset.range (m + 2), (hess H i j * y j) • rowV V i) + y j • r j := by
      intro j hj
      have hj' := Finset.mem_range.1 hj
      rw [(hr j hj').1, smul_add]
      congr 1
      rw [Finset.smul_sum]
      have hsub : Finset.range (j + 2) ⊆ Finset.range (m + 2) := Finset.range_subset_range.2 (by omega)
      rw [← Finset.sum_subset hsub]
      · exact Finset.sum_congr rfl (fun i _ => by rw [smul_smul, mul_comm])
      · intro i _ hi
        rw [hlow j hj' i (by have := Finset.mem_range.not.1 hi; omega), zero_mul, zero_smul]
    rw [h1, Finset.sum_congr rfl h2, Finset.sum_add_distrib, Finset.sum_comm, Finset.sum_range_succ]
    have h3 : ∑ j ∈ Finset.range (m + 1), (hess H (m + 1) j * y j) • rowV V (m + 1) = (hess H (m + 1) m * y m) • rowV V (m + 1) := by
      rw [Finset.sum_range_succ, Finset.sum_eq_zero, zero_add]
      intro j hj
      have hj' := Finset.mem_range.1 hj
      rw [hlow j (by omega) (m + 1) (by omega), zero_mul, zero_smul]
    have h4 : ∑ i ∈ Finset.range (m + 1), ∑ j ∈ Finset.range (m + 1), (hess H i j * y j) • rowV V i = μ • x := by
      simp only [x, ritzVector, Finset.smul_sum]
      refine Finset.sum_congr rfl (fun i hi => ?_)
      rw [← Finset.sum_smul, hy i (by have := Finset.mem_range.1 hi; omega), smul_smul]
    rw [h3, h4]; abel
  have hrem : vnorm (∑ j ∈ Finset.range (m + 1), y j • r j) ≤ (∑ j ∈ Finset.range (m + 1), |y j|) / 10 ^ 30 := by
    refine (vnorm_sum_le _ _).trans ?_
    rw [Finset.sum_div]
    refine Finset.sum_le_sum (fun j hj => ?_)
    rw [vnorm_smul, div_eq_mul_one_div]
    exact mul_le_mul_of_nonneg_left (hr j (Finset.mem_range.1 hj)).2.1 (abs_nonneg _)
  have hrow : vnorm (rowV V (m + 1)) ≤ 1 := by
    rcases hunit (m + 1) le_rfl with h | h
    · rw [vdot_self] at h
      exact le_of_sq_le_sq (by rw [h]; norm_num) (by norm_num)
    · show vnorm (rowV V (m + 1)) ≤ 1
      rw [show rowV V (m + 1) = 0 from h, vnorm_zero]; norm_num
  refine ⟨?_, ?_, ?_⟩
  · rw [hres]
    refine (vnorm_add_le _ _).trans (add_le_add ?_ hrem)
    rw [vnorm_smul]
    exact mul_le_of_le_one_right (abs_nonneg _) hrow
  · intro hmn
    -- n + 1 orthonormal rows do not fit
    have hz : rowV V (m + 1) = 0 := by
      by_contra hne
      have hpers : ∀ d i, i + d ≤ m + 1 → rowV V i = 0 → rowV V (i + d) = 0 := by
        intro d
        induction d with
        | zero => intro i _ h; exact h
        | succ d ih =>
          intro i hi h
          have h0 : rowV V (i + d) = 0 := ih i (by omega) h
          obtain ⟨w, h1, -, h3⟩ := I.next (i + d) (by omega)
          have hw : w = 0 := by
            rw [show rowV (arnoldi (T *ᵥ ·) v0 (m + 1)).1 (i + d) = 0 from h0] at h1
            rw [Finset.sum_eq_zero, zero_add, Matrix.mulVec_zero] at h1
            · exact h1.symm
            · intro k hk
              rw [I.proj (i + d) (by omega) k (by have := Finset.mem_range.1 hk; omega),
                show rowV (arnoldi (T *ᵥ ·) v0 (m + 1)).1 (i + d) = 0 from h0]
              simp [vdot_zero]
          refine h3.trans ?_
          rw [hw, nextRow, smul_zero]
      have hall : ∀ i ≤ m + 1, rowV V i ≠ 0 := by
        intro i hi h
        have := hpers (m + 1 - i) i (by omega) h
        rw [Nat.add_sub_cancel' hi] at this
        exact hne this
      have hli : LinearIndependent ℝ (fun i : Fin (m + 2) => rowV V i) := by
        rw [Fintype.linearIndependent_iff]
        intro g hg i
        have h := congrArg (vdot (rowV V i)) hg
        rw [vdot_sum, vdot_zero, Finset.sum_eq_single i] at h
        · have hi : (i : ℕ) ≤ m + 1 := by omega
          rw [vdot_smul, (hunit i hi).resolve_right (hall i hi), mul_one] at h
          exact h
        · intro k _ hki
          rw [vdot_smul, horth i (by omega) k (by omega) (fun e => hki (Fin.ext e.symm)), mul_zero]
        · intro h; exact absurd (Finset.mem_univ i) h
      have := hli.fintype_card_le_finrank
      rw [Fintype.card_fin, Module.finrank_fintype_fun_eq_card, Fintype.card_fin] at this
      omega
    rw [hres, hz, smul_zero, zero_add]; exact hrem
  · intro hμ hex hx
    have hyz : ∀ i ≤ m, y i = 0 := by
      have hdot : ∀ i ≤ m, rowV V i ≠ 0 → y i = 0 := by
        intro i hi hne
        have h1 : vdot (rowV V i) x = y i := by
          simp only [x, ritzVector]
          rw [vdot_sum, Finset.sum_eq_single i]
          · rw [vdot_smul, (hunit i (by omega)).resolve_right hne, mul_one]
          · intro k hk hki
            rw [vdot_smul, horth i (by omega) k (by have := Finset.mem_range.1 hk; omega) (Ne.symm hki), mul_zero]
          · intro h; exact absurd (Finset.mem_range.2 (by omega)) h
        rw [← h1, hx, vdot_zero]
      intro i
      induction i with
      | zero => intro _; exact hdot 0 (Nat.zero_le _) hne0
      | succ i ih =>
        intro hi
        by_cases hne : rowV V (i + 1) = 0
        · have h := hy (i + 1) hi
          rw [Finset.sum_eq_single i] at h
          · rw [ih (by omega), mul_zero] at h
            exact (mul_eq_zero.1 h.symm).resolve_left hμ
          · intro j hj hji
            have hj' := Finset.mem_range.1 hj
            rcases Nat.lt_or_ge j i with h' | h'
            · rw [hlow j hj' (i + 1) (by omega), zero_mul]
            · rw [I.proj j hj' (i + 1) (by omega), show rowV (arnoldi (T *ᵥ ·) v0 (m + 1)).1 (i + 1) = 0 from hne,
                zero_vdot, zero_mul]
          · intro h; exact absurd (Finset.mem_range.2 (by omega)) h
        · exact hdot (i + 1) hi hne
    obtain ⟨j, hj, hne⟩ := hex
    exact hne (hyz j hj)

/-- The hypotheses of `C107_ritz` are met: an operator that doubles, one step from any start. -/
example (v0 : Fin 3 → ℝ) (hv0 : v0 ≠ 0) : ∀ i ≤ 0, ∑ j ∈ Finset.range (0 + 1),
    hess (arnoldi (((2 : ℝ) • (1 : Matrix (Fin 3) (Fin 3) ℝ)) *ᵥ ·) v0 (0 + 1)).2 i j * 1 = 2 * 1 := by
  intro i hi
  obtain ⟨I, -⟩ := arnoldi_inv (((2 : ℝ) • (1 : Matrix (Fin 3) (Fin 3) ℝ)) *ᵥ ·) hv0 (0 + 1)
  have hne := arnoldi_first (((2 : ℝ) • (1 : Matrix (Fin 3) (Fin 3) ℝ)) *ᵥ ·) hv0 (0 + 1)
  rw [Nat.le_zero.1 hi, Finset.sum_range_one, I.proj 0 (by norm_num) 0 le_rfl]
  have e : ∀ x : Fin 3 → ℝ, ((2 : ℝ) • (1 : Matrix (Fin 3) (Fin 3) ℝ)) *ᵥ x = (2 : ℝ) • x := by
    intro x; rw [smul_mulVec, one_mulVec]
  beta_reduce
  rw [e, vdot_smul, (I.unit 0 (by norm_num)).resolve_right hne, mul_one]

end

end Verif.Props
