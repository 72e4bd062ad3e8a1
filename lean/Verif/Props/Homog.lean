import Verif.Model.Homog
import Mathlib.Tactic.Ring
import Mathlib.Tactic.Linarith
import Mathlib.Tactic.FieldSimp
import Mathlib.Tactic.FinCases
import Mathlib.Data.Matrix.Basic
import Mathlib.LinearAlgebra.Dual.Lemmas
import Mathlib.Data.List.GetD

/-!
# Homogenised stiffness (C117-C121)
-/

namespace Verif.Props
open Verif.Model Verif.Model.Homog

namespace Spec.Homog

variable {d : ℕ}

/-- `A : B`. -/
def ddot (A B : Matrix (Fin d) (Fin d) ℝ) : ℝ := ∑ i, ∑ j, A i j * B i j

/-- A linear elastic material: stresses are linear in the displacement gradient, symmetric, derive from an energy, and the energy
is nonnegative. -/
structure Elastic (σ : Matrix (Fin d) (Fin d) ℝ → Matrix (Fin d) (Fin d) ℝ) : Prop where
  add : ∀ A B, σ (A + B) = σ A + σ B
  smul : ∀ (c : ℝ) A, σ (c • A) = c • σ A
  symm : ∀ A i j, σ A i j = σ A j i
  major : ∀ A B, ddot (σ A) B = ddot (σ B) A
  nonneg : ∀ A, 0 ≤ ddot (σ A) A

/-- A meshed unit cell with elastic materials: nonnegative weights, positive volume, shape functions that sum to one and
reproduce the coordinates, and a prolongation with indices in range. -/
structure Cell (pts : List (HPoint d)) (X : Field d) (P : Tie d) : Prop where
  elastic : ∀ q ∈ pts, Elastic q.stress
  weight : ∀ q ∈ pts, 0 ≤ q.w
  volume : 0 < (pts.map (·.w)).sum
  nodes : ∀ q ∈ pts, ∀ a ∈ q.nodes, a.1 < P.N
  unity : ∀ q ∈ pts, ∀ j, (q.nodes.map fun a => a.2 j).sum = 0
  complete : ∀ q ∈ pts, ∀ i j, (q.nodes.map fun a => X a.1 i * a.2 j).sum = if i = j then 1 else 0
  range : ∀ n < P.N, ∀ i, P.col n i < P.M

/-- `∫ σ(∇u) : ∇v`. -/
noncomputable def work (pts : List (HPoint d)) (u v : Field d) : ℝ :=
  (pts.map fun q => q.w * ddot (q.stress (gradAt q u)) (gradAt q v)).sum

/-- A field takes equal values at DOFs that `P` identifies. -/
def Periodic (P : Tie d) (f : Field d) : Prop := ∀ n < P.N, ∀ m < P.N, ∀ i j, P.col n i = P.col m j → f n i = f m j

/-- `u` is a displacement of the cell under the macroscopic strain `E`: the affine field `E X` plus a periodic field, in equilibrium
against every periodic variation. -/
structure Equilibrium (pts : List (HPoint d)) (X : Field d) (P : Tie d) (E : Matrix (Fin d) (Fin d) ℝ) (u : Field d) : Prop where
  periodic : Periodic P fun n i => u n i - ∑ j, E i j * X n j
  balance : ∀ v, Periodic P v → work pts u v = 0

/-- The Voigt components: `11, 22, 12` in the plane and `11, 22, 33, 23, 13, 12` in space. -/
def pairs2 : Fin 3 → Fin 2 × Fin 2 := ![(0, 0), (1, 1), (0, 1)]
def pairs3 : Fin 6 → Fin 3 × Fin 3 := ![(0, 0), (1, 1), (2, 2), (1, 2), (0, 2), (0, 1)]

/-- The layout of Voigt vectors of a problem of dimension `d`. -/
inductive Layout : (d m : ℕ) → (Fin m → Fin d × Fin d) → Prop
  | plane : Layout 2 3 pairs2
  | space : Layout 3 6 pairs3

/-- The strain with Voigt components `e`, shear components in engineering form. -/
noncomputable def strain {m : ℕ} (pairs : Fin m → Fin d × Fin d) (e : Fin m → ℝ) : Matrix (Fin d) (Fin d) ℝ := fun i j =>
  ∑ k, ((if (i, j) = pairs k then e k / 2 else 0) + if (j, i) = pairs k then e k / 2 else 0)

/-- `C_hom[i, k]`. -/
def entry (r : Result d) (i k : ℕ) : ℝ := (r.cHom.getD i []).getD k 0

/-- A symmetric positive semidefinite operator on `M` unknowns. -/
structure Semidefinite (M : ℕ) (op : (ℕ → ℝ) → ℕ → ℝ) : Prop where
  add : ∀ x y, ∀ k < M, op (x + y) k = op x k + op y k
  smul : ∀ (c : ℝ) x, ∀ k < M, op (c • x) k = c * op x k
  symm : ∀ x y, ∑ k ∈ Finset.range M, op x k * y k = ∑ k ∈ Finset.range M, op y k * x k
  nonneg : ∀ x, 0 ≤ ∑ k ∈ Finset.range M, op x k * x k

/-- A matrix-free solver that solves every solvable semidefinite system with `M` unknowns. -/
def Exact (M : ℕ) (solve : Solver) : Prop := ∀ (op : (ℕ → ℝ) → ℕ → ℝ) (b : ℕ → ℝ), Semidefinite M op →
  (∃ x, ∀ k < M, op x k = b k) → ∀ k < M, op (solve op b) k = b k

end Spec.Homog

open Spec.Homog

variable {d : ℕ} {pts : List (HPoint d)} {X : Field d} {P : Tie d}

/-! ## Linear algebra of fields -/

theorem ddot_add_right (A B C : Matrix (Fin d) (Fin d) ℝ) : ddot A (B + C) = ddot A B + ddot A C := by
  simp only [ddot, Matrix.add_apply, mul_add, Finset.sum_add_distrib]

theorem ddot_add_left (A B C : Matrix (Fin d) (Fin d) ℝ) : ddot (A + B) C = ddot A C + ddot B C := by
  simp only [ddot, Matrix.add_apply, add_mul, Finset.sum_add_distrib]

theorem ddot_smul_right (c : ℝ) (A B : Matrix (Fin d) (Fin d) ℝ) : ddot A (c • B) = c * ddot A B := by
  simp only [ddot, Matrix.smul_apply, smul_eq_mul, Finset.mul_sum]
  exact Finset.sum_congr rfl fun i _ => Finset.sum_congr rfl fun j _ => by ring

theorem ddot_smul_left (c : ℝ) (A B : Matrix (Fin d) (Fin d) ℝ) : ddot (c • A) B = c * ddot A B := by
  simp only [ddot, Matrix.smul_apply, smul_eq_mul, Finset.mul_sum]
  exact Finset.sum_congr rfl fun i _ => Finset.sum_congr rfl fun j _ => by ring

theorem ddot_zero_right (A : Matrix (Fin d) (Fin d) ℝ) : ddot A 0 = 0 := by simp [ddot]

theorem hgrad_add (q : HPoint d) (u v : Field d) : gradAt q (u + v) = gradAt q u + gradAt q v := by
  funext i j
  simp only [gradAt, Matrix.add_apply, Pi.add_apply, add_mul, List.sum_map_add]

theorem hgrad_smul (q : HPoint d) (c : ℝ) (u : Field d) : gradAt q (c • u) = c • gradAt q u := by
  funext i j
  simp only [gradAt, Matrix.smul_apply, Pi.smul_apply, smul_eq_mul, mul_assoc, List.sum_map_mul_left]

theorem work_add_right (u v v' : Field d) : work pts u (v + v') = work pts u v + work pts u v' := by
  simp only [work, hgrad_add, ddot_add_right, mul_add, List.sum_map_add]

theorem work_smul_right (u v : Field d) (c : ℝ) : work pts u (c • v) = c * work pts u v := by
  simp only [work, hgrad_smul, ddot_smul_right, mul_left_comm _ c, List.sum_map_mul_left]

theorem work_comm (h : ∀ q ∈ pts, Elastic q.stress) (u v : Field d) : work pts u v = work pts v u := by
  unfold work
  congr 1
  refine List.map_congr_left fun q hq => ?_
  rw [(h q hq).major]

theorem work_add_left (h : ∀ q ∈ pts, Elastic q.stress) (u u' v : Field d) :
    work pts (u + u') v = work pts u v + work pts u' v := by
  rw [work_comm h, work_add_right, work_comm h v u, work_comm h v u']

theorem work_smul_left (h : ∀ q ∈ pts, Elastic q.stress) (u v : Field d) (c : ℝ) :
    work pts (c • u) v = c * work pts u v := by
  rw [work_comm h, work_smul_right, work_comm h v u]

theorem work_nonneg (h : ∀ q ∈ pts, Elastic q.stress) (hw : ∀ q ∈ pts, 0 ≤ q.w) (u : Field d) : 0 ≤ work pts u u := by
  refine List.sum_nonneg fun x hx => ?_
  obtain ⟨q, hq, rfl⟩ := List.mem_map.1 hx
  exact mul_nonneg (hw q hq) ((h q hq).nonneg _)

theorem sum_range_list {α : Type*} {ι : Type*} (s : Finset ι) (l : List α) (f : ι → α → ℝ) :
    ∑ n ∈ s, (l.map (f n)).sum = (l.map fun q => ∑ n ∈ s, f n q).sum := by
  induction l with
  | nil => simp
  | cons a l ih => simp only [List.map_cons, List.sum_cons, Finset.sum_add_distrib, ih]

theorem sum_list_mul {α : Type*} (l : List α) (f : α → ℝ) (c : ℝ) : (l.map f).sum * c = (l.map fun a => f a * c).sum := by
  induction l with
  | nil => simp
  | cons a l ih => simp only [List.map_cons, List.sum_cons, add_mul, ih]

/-- The residual tested with a field is the virtual work. -/
theorem hresidual_work (hn : ∀ q ∈ pts, ∀ a ∈ q.nodes, a.1 < P.N) (u v : Field d) :
    ∑ n ∈ Finset.range P.N, ∑ i, residual pts u n i * v n i = work pts u v := by
  have h1 : ∀ n i, residual pts u n i * v n i = (pts.map fun q => (q.nodes.map fun a =>
      (if a.1 = n then q.w * ∑ j, q.stress (gradAt q u) i j * a.2 j else 0) * v n i).sum).sum := by
    intro n i
    simp only [residual, sum_list_mul]
  simp only [h1, sum_range_list]
  unfold work
  congr 1
  refine List.map_congr_left fun q hq => ?_
  have h2 : ∀ a ∈ q.nodes, (∑ n ∈ Finset.range P.N, ∑ i,
      (if a.1 = n then q.w * ∑ j, q.stress (gradAt q u) i j * a.2 j else 0) * v n i) =
      ∑ i, (q.w * ∑ j, q.stress (gradAt q u) i j * a.2 j) * v a.1 i := by
    intro a ha
    rw [Finset.sum_eq_single a.1]
    · simp
    · intro n _ hne
      simp [Ne.symm hne]
    · intro h
      exact absurd (Finset.mem_range.2 (hn q hq a ha)) h
  rw [List.map_congr_left h2]
  have h3 : q.w * ddot (q.stress (gradAt q u)) (gradAt q v) =
      ∑ i, ∑ j, (q.nodes.map fun a => q.w * (q.stress (gradAt q u) i j * (v a.1 i * a.2 j))).sum := by
    simp only [ddot, gradAt, Finset.mul_sum, List.sum_map_mul_left]
  rw [h3, ← sum_range_list Finset.univ]
  refine Finset.sum_congr rfl fun i _ => ?_
  rw [sum_range_list]
  congr 1
  refine List.map_congr_left fun a _ => ?_
  rw [Finset.mul_sum, Finset.sum_mul]
  exact Finset.sum_congr rfl fun j _ => by ring

theorem restrict_dot (hr : ∀ n < P.N, ∀ i, P.col n i < P.M) (r : Field d) (y : ℕ → ℝ) :
    ∑ k ∈ Finset.range P.M, P.restrict r k * y k = ∑ n ∈ Finset.range P.N, ∑ i, r n i * P.prolong y n i := by
  simp only [Tie.restrict, Finset.sum_mul]
  rw [Finset.sum_comm]
  refine Finset.sum_congr rfl fun n hn => ?_
  rw [Finset.sum_comm]
  refine Finset.sum_congr rfl fun i _ => ?_
  rw [Finset.sum_eq_single (P.col n i)]
  · simp [Tie.prolong]
  · intro k _ hk
    simp [Ne.symm hk]
  · intro h
    exact absurd (Finset.mem_range.2 (hr n (Finset.mem_range.1 hn) i)) h

/-- The reduced equations are equilibrium against the prolonged variations. -/
theorem restrict_work (hn : ∀ q ∈ pts, ∀ a ∈ q.nodes, a.1 < P.N) (hr : ∀ n < P.N, ∀ i, P.col n i < P.M) (u : Field d) (y : ℕ → ℝ) :
    ∑ k ∈ Finset.range P.M, P.restrict (residual pts u) k * y k = work pts u (P.prolong y) := by
  rw [restrict_dot hr, hresidual_work hn]

/-! ## Fields on the nodes of the cell -/

theorem hgrad_congr {q : HPoint d} {N : ℕ} (hn : ∀ a ∈ q.nodes, a.1 < N) {u u' : Field d} (h : ∀ n < N, ∀ i, u n i = u' n i) :
    gradAt q u = gradAt q u' := by
  funext i j
  simp only [gradAt]
  congr 1
  exact List.map_congr_left fun a ha => by rw [h _ (hn a ha)]

theorem work_congr (hn : ∀ q ∈ pts, ∀ a ∈ q.nodes, a.1 < P.N) {u u' v v' : Field d} (h : ∀ n < P.N, ∀ i, u n i = u' n i)
    (h' : ∀ n < P.N, ∀ i, v n i = v' n i) : work pts u v = work pts u' v' := by
  unfold work
  congr 1
  exact List.map_congr_left fun q hq => by rw [hgrad_congr (hn q hq) h, hgrad_congr (hn q hq) h']

theorem meanStress_congr (hn : ∀ q ∈ pts, ∀ a ∈ q.nodes, a.1 < P.N) {u u' : Field d} (h : ∀ n < P.N, ∀ i, u n i = u' n i) :
    meanStress pts u = meanStress pts u' := by
  funext i j
  unfold meanStress
  congr 2
  exact List.map_congr_left fun q hq => by rw [hgrad_congr (hn q hq) h]

theorem prolong_periodic (P : Tie d) (y : ℕ → ℝ) : Periodic P (P.prolong y) := by
  intro n _ m _ i j h
  simp only [Tie.prolong, h]

theorem periodic_prolong {f : Field d} (h : Periodic P f) : ∃ y, ∀ n < P.N, ∀ i, P.prolong y n i = f n i := by
  classical
  refine ⟨fun k => if hk : ∃ p : ℕ × Fin d, p.1 < P.N ∧ P.col p.1 p.2 = k then f hk.choose.1 hk.choose.2 else 0, ?_⟩
  intro n hn i
  have hk : ∃ p : ℕ × Fin d, p.1 < P.N ∧ P.col p.1 p.2 = P.col n i := ⟨(n, i), hn, rfl⟩
  simp only [Tie.prolong, dif_pos hk]
  exact h _ hk.choose_spec.1 _ hn _ _ hk.choose_spec.2

/-- The affine field of a gradient `E`. -/
def affine (X : Field d) (E : Matrix (Fin d) (Fin d) ℝ) : Field d := fun n i => ∑ j, E i j * X n j

theorem haffine_grad (h : Cell pts X P) {q : HPoint d} (hq : q ∈ pts) (E : Matrix (Fin d) (Fin d) ℝ) : gradAt q (affine X E) = E := by
  funext i j
  simp only [gradAt, affine]
  have h1 : ∀ a ∈ q.nodes, (∑ k, E i k * X a.1 k) * a.2 j = ∑ k, E i k * (X a.1 k * a.2 j) := by
    intro a _
    rw [Finset.sum_mul]
    exact Finset.sum_congr rfl fun k _ => by ring
  rw [List.map_congr_left h1, ← sum_range_list Finset.univ]
  simp only [List.sum_map_mul_left, h.complete q hq, mul_ite, mul_one, mul_zero, Finset.sum_ite_eq', Finset.mem_univ, if_true]

/-- Work on an affine field. -/
theorem work_affine (h : Cell pts X P) (u : Field d) (E : Matrix (Fin d) (Fin d) ℝ) :
    work pts u (affine X E) = volume pts * ddot (meanStress pts u) E := by
  have hV : volume pts ≠ 0 := h.volume.ne'
  have h1 : work pts u (affine X E) = (pts.map fun q => q.w * ddot (q.stress (gradAt q u)) E).sum := by
    unfold work
    congr 1
    exact List.map_congr_left fun q hq => by rw [haffine_grad h hq]
  rw [h1]
  simp only [ddot, meanStress, Finset.mul_sum]
  rw [← sum_range_list Finset.univ]
  refine Finset.sum_congr rfl fun i _ => ?_
  rw [← sum_range_list Finset.univ]
  refine Finset.sum_congr rfl fun j _ => ?_
  rw [show volume pts * ((pts.map fun q => q.w * q.stress (gradAt q u) i j).sum / volume pts * E i j) =
    (pts.map fun q => q.w * q.stress (gradAt q u) i j).sum * E i j by field_simp, sum_list_mul]
  congr 1
  exact List.map_congr_left fun q _ => by ring

/-- **Hill's identity.** -/
theorem hill (h : Cell pts X P) {E E' : Matrix (Fin d) (Fin d) ℝ} {u u' : Field d} (hu : Equilibrium pts X P E u)
    (hu' : Periodic P fun n i => u' n i - ∑ j, E' i j * X n j) : work pts u u' = volume pts * ddot (meanStress pts u) E' := by
  have h1 : u' = affine X E' + fun n i => u' n i - ∑ j, E' i j * X n j := by
    funext n i
    simp [affine]
  conv_lhs => rw [h1]
  rw [work_add_right, hu.balance _ hu', add_zero, work_affine h]

/-- A field without energy does no work. -/
theorem work_eq_zero (h : Cell pts X P) {u : Field d} (hu : work pts u u = 0) (v : Field d) : work pts u v = 0 := by
  by_contra hne
  have key : ∀ t : ℝ, 0 ≤ 2 * t * work pts u v + work pts v v := by
    intro t
    have := work_nonneg h.elastic h.weight (t • u + v)
    rw [work_add_right, work_add_left h.elastic, work_add_left h.elastic, work_smul_left h.elastic, work_smul_right,
      work_smul_right, work_smul_left h.elastic, hu, work_comm h.elastic v u] at this
    linarith
  have := key (-(work pts v v + 1) / (2 * work pts u v))
  rw [show 2 * (-(work pts v v + 1) / (2 * work pts u v)) * work pts u v = -(work pts v v + 1) by field_simp] at this
  linarith

theorem meanStress_add (h : ∀ q ∈ pts, Elastic q.stress) (u v : Field d) :
    meanStress pts (u + v) = meanStress pts u + meanStress pts v := by
  funext i j
  simp only [meanStress, Matrix.add_apply]
  rw [← add_div, ← List.sum_map_add]
  congr 2
  refine List.map_congr_left fun q hq => ?_
  rw [hgrad_add, (h q hq).add, Matrix.add_apply, mul_add]

theorem meanStress_smul (h : ∀ q ∈ pts, Elastic q.stress) (c : ℝ) (u : Field d) : meanStress pts (c • u) = c • meanStress pts u := by
  funext i j
  simp only [meanStress, Matrix.smul_apply, smul_eq_mul]
  rw [← mul_div_assoc, ← List.sum_map_mul_left]
  congr 2
  refine List.map_congr_left fun q hq => ?_
  rw [hgrad_smul, (h q hq).smul, Matrix.smul_apply, smul_eq_mul]
  ring

theorem meanStress_symm (h : ∀ q ∈ pts, Elastic q.stress) (u : Field d) (i j : Fin d) : meanStress pts u i j = meanStress pts u j i := by
  simp only [meanStress]
  congr 2
  exact List.map_congr_left fun q hq => by rw [(h q hq).symm]

theorem ddot_single (A : Matrix (Fin d) (Fin d) ℝ) (i j : Fin d) : ddot A (fun a b => if a = i ∧ b = j then 1 else 0) = A i j := by
  simp only [ddot, mul_ite, mul_one, mul_zero]
  rw [Finset.sum_eq_single i, Finset.sum_eq_single j]
  · simp
  · intro b _ hb; simp [hb]
  · simp
  · intro a _ ha; simp [ha]
  · simp

theorem eq_of_ddot {A B : Matrix (Fin d) (Fin d) ℝ} (h : ∀ E, ddot A E = ddot B E) : A = B := by
  funext i j
  exact (ddot_single A i j).symm.trans ((h _).trans (ddot_single B i j))

theorem meanStress_zero_of_energy (h : Cell pts X P) {u : Field d} (hu : work pts u u = 0) : meanStress pts u = 0 := by
  refine eq_of_ddot fun E => ?_
  have := work_eq_zero h hu (affine X E)
  rw [work_affine h, mul_eq_zero] at this
  rcases this with h0 | h0
  · exact absurd h0 h.volume.ne'
  · rw [h0]; simp [ddot]

theorem affine_smul (X : Field d) (c : ℝ) (E : Matrix (Fin d) (Fin d) ℝ) : affine X (c • E) = c • affine X E := by
  funext n i
  simp only [affine, Matrix.smul_apply, Pi.smul_apply, smul_eq_mul, Finset.mul_sum, mul_assoc]

theorem affine_add (X : Field d) (E F : Matrix (Fin d) (Fin d) ℝ) : affine X (E + F) = affine X E + affine X F := by
  funext n i
  simp only [affine, Matrix.add_apply, Pi.add_apply, add_mul, Finset.sum_add_distrib]

theorem Spec.Homog.Equilibrium.add (h : Cell pts X P) {E F : Matrix (Fin d) (Fin d) ℝ} {u v : Field d} (hu : Equilibrium pts X P E u)
    (hv : Equilibrium pts X P F v) : Equilibrium pts X P (E + F) (u + v) := by
  refine ⟨fun n hn m hm i j hc => ?_, fun w hw => ?_⟩
  · have h1 := hu.periodic n hn m hm i j hc
    have h2 := hv.periodic n hn m hm i j hc
    simp only [Pi.add_apply, Matrix.add_apply, add_mul, Finset.sum_add_distrib] at h1 h2 ⊢
    linarith
  · rw [work_add_left h.elastic, hu.balance w hw, hv.balance w hw, add_zero]

theorem Spec.Homog.Equilibrium.smul (h : Cell pts X P) {E : Matrix (Fin d) (Fin d) ℝ} {u : Field d} (hu : Equilibrium pts X P E u) (c : ℝ) :
    Equilibrium pts X P (c • E) (c • u) := by
  refine ⟨fun n hn m hm i j hc => ?_, fun w hw => ?_⟩
  · have h1 := hu.periodic n hn m hm i j hc
    simp only [Pi.smul_apply, Matrix.smul_apply, smul_eq_mul, mul_assoc, ← Finset.mul_sum] at h1 ⊢
    rw [← mul_sub, ← mul_sub, h1]
  · rw [work_smul_left h.elastic, hu.balance w hw, mul_zero]

/-- Two equilibria under the same macroscopic strain have the same mean stress. -/
theorem meanStress_unique (h : Cell pts X P) {E : Matrix (Fin d) (Fin d) ℝ} {u v : Field d} (hu : Equilibrium pts X P E u)
    (hv : Equilibrium pts X P E v) : meanStress pts u = meanStress pts v := by
  have hw : Equilibrium pts X P (E + (-1 : ℝ) • E) (u + (-1 : ℝ) • v) := hu.add h (hv.smul h _)
  rw [show E + (-1 : ℝ) • E = 0 by simp] at hw
  have hp : Periodic P (u + (-1 : ℝ) • v) := by
    intro n hn m hm i j hc
    have := hw.periodic n hn m hm i j hc
    simpa using this
  have := meanStress_zero_of_energy h (hw.balance _ hp)
  rw [meanStress_add h.elastic, meanStress_smul h.elastic] at this
  simpa [add_neg_eq_zero] using this

/-! ## The reduced equations -/

/-- A solution of the reduced equations gives an equilibrium. -/
theorem equilibrium_of_reduced (h : Cell pts X P) (E : Matrix (Fin d) (Fin d) ℝ) {x : ℕ → ℝ}
    (hx : ∀ k < P.M, reducedOp pts P x k = caseRhs pts P (affine X E) k) : Equilibrium pts X P E (affine X E + P.prolong x) := by
  refine ⟨fun n hn m hm i j hc => ?_, fun v hv => ?_⟩
  · simp [affine, Tie.prolong, hc]
  · obtain ⟨y, hy⟩ := periodic_prolong hv
    rw [work_congr h.nodes (fun _ _ _ => rfl) (fun n hn i => (hy n hn i).symm), work_add_left h.elastic,
      ← restrict_work h.nodes h.range (P.prolong x) y, ← restrict_work h.nodes h.range (affine X E) y, ← Finset.sum_add_distrib]
    refine Finset.sum_eq_zero fun k hk => ?_
    have := hx k (Finset.mem_range.1 hk)
    simp only [reducedOp, caseRhs] at this
    rw [this]
    ring
theorem residual_add (h : ∀ q ∈ pts, Elastic q.stress) (u v : Field d) : residual pts (u + v) = residual pts u + residual pts v := by
  funext n i
  simp only [residual, Pi.add_apply]
  rw [← List.sum_map_add]
  congr 1
  refine List.map_congr_left fun q hq => ?_
  rw [← List.sum_map_add]
  congr 1
  refine List.map_congr_left fun a _ => ?_
  rw [hgrad_add, (h q hq).add]
  split_ifs
  · simp only [Matrix.add_apply, add_mul, Finset.sum_add_distrib, mul_add]
  · simp

theorem residual_smul (h : ∀ q ∈ pts, Elastic q.stress) (c : ℝ) (u : Field d) : residual pts (c • u) = c • residual pts u := by
  funext n i
  simp only [residual, Pi.smul_apply, smul_eq_mul]
  rw [← List.sum_map_mul_left]
  congr 1
  refine List.map_congr_left fun q hq => ?_
  rw [← List.sum_map_mul_left]
  congr 1
  refine List.map_congr_left fun a _ => ?_
  rw [hgrad_smul, (h q hq).smul]
  split_ifs
  · simp only [Matrix.smul_apply, smul_eq_mul, mul_assoc, ← Finset.mul_sum]
    ring
  · simp

theorem restrict_add (r s : Field d) : P.restrict (r + s) = P.restrict r + P.restrict s := by
  funext k
  simp only [Tie.restrict, Pi.add_apply, ← Finset.sum_add_distrib]
  refine Finset.sum_congr rfl fun n _ => Finset.sum_congr rfl fun i _ => ?_
  split_ifs <;> simp

theorem restrict_smul (c : ℝ) (r : Field d) : P.restrict (c • r) = c • P.restrict r := by
  funext k
  simp only [Tie.restrict, Pi.smul_apply, smul_eq_mul, Finset.mul_sum]
  refine Finset.sum_congr rfl fun n _ => Finset.sum_congr rfl fun i _ => ?_
  split_ifs <;> simp

theorem reducedOp_add (h : Cell pts X P) (x y : ℕ → ℝ) : reducedOp pts P (x + y) = reducedOp pts P x + reducedOp pts P y := by
  unfold reducedOp
  rw [← restrict_add, ← residual_add h.elastic]
  rfl

theorem reducedOp_smul (h : Cell pts X P) (c : ℝ) (x : ℕ → ℝ) : reducedOp pts P (c • x) = c • reducedOp pts P x := by
  unfold reducedOp
  rw [← restrict_smul, ← residual_smul h.elastic]
  rfl

theorem reducedOp_form (h : Cell pts X P) (x y : ℕ → ℝ) :
    ∑ k ∈ Finset.range P.M, reducedOp pts P x k * y k = work pts (P.prolong x) (P.prolong y) :=
  restrict_work h.nodes h.range _ _

theorem reducedOp_semidefinite (h : Cell pts X P) : Semidefinite P.M (reducedOp pts P) where
  add x y k _ := by rw [reducedOp_add h]; rfl
  smul c x k _ := by rw [reducedOp_smul h]; rfl
  symm x y := by rw [reducedOp_form h, reducedOp_form h, work_comm h.elastic]
  nonneg x := by rw [reducedOp_form h]; exact work_nonneg h.elastic h.weight _

/-- A symmetric linear map reaches every vector orthogonal to its kernel. -/
theorem solvable_of_orthogonal {M : ℕ} (T : (Fin M → ℝ) →ₗ[ℝ] (Fin M → ℝ)) (hs : ∀ x y, ∑ k, T x k * y k = ∑ k, T y k * x k)
    (b : Fin M → ℝ) (hb : ∀ z, T z = 0 → ∑ k, b k * z k = 0) : ∃ x, T x = b := by
  let f : Module.Dual ℝ (Fin M → ℝ) :=
    { toFun := fun z => ∑ k, b k * z k
      map_add' := fun x y => by simp [mul_add, Finset.sum_add_distrib]
      map_smul' := fun c x => by
        simp only [Pi.smul_apply, smul_eq_mul, RingHom.id_apply, Finset.mul_sum]
        exact Finset.sum_congr rfl fun k _ => by ring }
  have hf : f ∈ (LinearMap.ker T).dualAnnihilator := by
    rw [Submodule.mem_dualAnnihilator]
    intro z hz
    exact hb z (LinearMap.mem_ker.1 hz)
  rw [← LinearMap.range_dualMap_eq_dualAnnihilator_ker] at hf
  obtain ⟨g, hg⟩ := hf
  have hgx : ∀ z, g z = ∑ k, z k * g (Pi.single k 1) := by
    intro z
    conv_lhs => rw [pi_eq_sum_univ' z]
    simp [map_sum]
  refine ⟨fun k => g (Pi.single k 1), ?_⟩
  funext j
  have h1 : g (T (Pi.single j 1)) = f (Pi.single j 1) := by rw [← hg]; rfl
  have h2 : f (Pi.single j 1) = b j := by
    show ∑ k, b k * (Pi.single j (1 : ℝ) : Fin M → ℝ) k = b j
    simp [Pi.single_apply]
  rw [hgx, h2, hs] at h1
  rw [← h1]
  simp [Pi.single_apply]

/-- **C118.** The equations of every strain case have a solution, although translations make them singular. -/
theorem C118_solvable (h : Cell pts X P) (um : Field d) : ∃ x, ∀ k < P.M, reducedOp pts P x k = caseRhs pts P um k := by
  classical
  let ext : (Fin P.M → ℝ) → ℕ → ℝ := fun x k => if hk : k < P.M then x ⟨k, hk⟩ else 0
  have hadd : ∀ x y, ext (x + y) = ext x + ext y := by
    intro x y
    funext k
    simp only [ext, Pi.add_apply]
    split_ifs <;> simp
  have hsmul : ∀ (c : ℝ) x, ext (c • x) = c • ext x := by
    intro c x
    funext k
    simp only [ext, Pi.smul_apply, smul_eq_mul]
    split_ifs <;> simp
  let T : (Fin P.M → ℝ) →ₗ[ℝ] (Fin P.M → ℝ) :=
    { toFun := fun x k => reducedOp pts P (ext x) k
      map_add' := fun x y => by funext k; rw [hadd, reducedOp_add h]; rfl
      map_smul' := fun c x => by funext k; rw [hsmul, reducedOp_smul h]; rfl }
  have hext : ∀ (r : ℕ → ℝ) (y : Fin P.M → ℝ), ∑ k : Fin P.M, r k * y k = ∑ k ∈ Finset.range P.M, r k * ext y k := by
    intro r y
    rw [Finset.sum_range]
    refine Finset.sum_congr rfl fun k _ => ?_
    simp [ext]
  have hT : ∀ x y, ∑ k, T x k * y k = work pts (P.prolong (ext x)) (P.prolong (ext y)) := by
    intro x y
    rw [← reducedOp_form h]
    exact hext (reducedOp pts P (ext x)) y
  obtain ⟨x, hx⟩ := solvable_of_orthogonal T (fun x y => by rw [hT, hT, work_comm h.elastic]) (fun k => caseRhs pts P um k) (by
    intro z hz
    have h0 : work pts (P.prolong (ext z)) (P.prolong (ext z)) = 0 := by
      rw [← hT, hz]; simp
    rw [hext (caseRhs pts P um) z]
    have h1 := restrict_work h.nodes h.range um (ext z)
    rw [work_comm h.elastic, work_eq_zero h h0] at h1
    simp only [caseRhs, neg_mul, Finset.sum_neg_distrib, h1, neg_zero])
  exact ⟨ext x, fun k hk => congrFun hx ⟨k, hk⟩⟩

/-! ## Voigt vectors -/

theorem macro_affine (hd : d ≤ 3) (X : Field d) (eps : Matrix (Fin 3) (Fin 3) ℝ) :
    macroDisplacement X eps = affine X (eps.submatrix (Fin.castLE hd) (Fin.castLE hd)) := by
  funext n i
  have hi : i.1 < 3 := lt_of_lt_of_le i.2 hd
  simp only [macroDisplacement, dif_pos hi, affine]
  symm
  have h1 : ∑ j : Fin d, eps (Fin.castLE hd i) (Fin.castLE hd j) * X n j =
      ∑ j ∈ Finset.univ.map (Fin.castLEEmb hd), eps ⟨i, hi⟩ j * pad (X n) j := by
    rw [Finset.sum_map]
    refine Finset.sum_congr rfl fun j _ => ?_
    simp only [pad, Fin.castLEEmb_apply, Fin.val_castLE, j.2, dif_pos]
    rfl
  refine h1.trans ?_
  refine Finset.sum_subset (Finset.subset_univ _) fun j _ hj => ?_
  have : ¬ j.1 < d := by
    intro hlt
    exact hj (Finset.mem_map.2 ⟨⟨j, hlt⟩, Finset.mem_univ _, rfl⟩)
  simp [pad, this]

theorem strain_sum {m : ℕ} (pairs : Fin m → Fin d × Fin d) (e : Fin m → ℝ) :
    strain pairs e = ∑ k, e k • strain pairs (Pi.single k 1) := by
  funext i j
  rw [Matrix.sum_apply]
  simp only [strain, Matrix.smul_apply, smul_eq_mul]
  refine Finset.sum_congr rfl fun k _ => ?_
  rw [Finset.sum_eq_single k]
  · simp only [Pi.single_eq_same]
    split_ifs <;> ring
  · intro l _ hl
    simp [Pi.single_eq_of_ne hl]
  · simp

theorem ddot_strain {m : ℕ} (pairs : Fin m → Fin d × Fin d) {S : Matrix (Fin d) (Fin d) ℝ} (hS : ∀ i j, S i j = S j i) (e : Fin m → ℝ) :
    ddot S (strain pairs e) = ∑ k, S (pairs k).1 (pairs k).2 * e k := by
  have h1 : ∀ k, ∑ i, ∑ j, S i j * (if (i, j) = pairs k then e k / 2 else 0) = S (pairs k).1 (pairs k).2 * (e k / 2) := by
    intro k
    rw [Finset.sum_eq_single (pairs k).1, Finset.sum_eq_single (pairs k).2]
    · simp
    · intro b _ hb; rw [if_neg (fun hh => hb (congrArg Prod.snd hh)), mul_zero]
    · simp
    · intro a _ ha
      refine Finset.sum_eq_zero fun j _ => ?_
      rw [if_neg (fun hh => ha (congrArg Prod.fst hh)), mul_zero]
    · simp
  have h2 : ∀ k, ∑ i, ∑ j, S i j * (if (j, i) = pairs k then e k / 2 else 0) = S (pairs k).1 (pairs k).2 * (e k / 2) := by
    intro k
    rw [← h1 k, Finset.sum_comm]
    exact Finset.sum_congr rfl fun j _ => Finset.sum_congr rfl fun i _ => by rw [hS]
  have h3 : ddot S (strain pairs e) = ∑ k, ((∑ i, ∑ j, S i j * (if (i, j) = pairs k then e k / 2 else 0)) +
      ∑ i, ∑ j, S i j * (if (j, i) = pairs k then e k / 2 else 0)) := by
    simp only [ddot, strain, Finset.mul_sum, mul_add, Finset.sum_add_distrib]
    have hsw : ∀ F : Fin d → Fin d → Fin m → ℝ, ∑ i, ∑ j, ∑ k, F i j k = ∑ k, ∑ i, ∑ j, F i j k := by
      intro F
      rw [Finset.sum_comm]
      rw [Finset.sum_congr rfl fun j _ => Finset.sum_comm (f := fun i k => F i j k), Finset.sum_comm]
      exact Finset.sum_congr rfl fun k _ => Finset.sum_comm
    rw [hsw, hsw]
  rw [h3]
  refine Finset.sum_congr rfl fun k _ => ?_
  rw [h1, h2]
  ring
theorem unitStrains3_eq (k : Fin 6) :
    (unitStrains3.getD k 0).submatrix (Fin.castLE (le_refl 3)) (Fin.castLE (le_refl 3)) = strain pairs3 (Pi.single k 1) := by
  funext i j
  fin_cases k <;> fin_cases i <;> fin_cases j <;>
    simp [unitStrains3, strain, pairs3, Fin.sum_univ_six, Pi.single_apply] <;> norm_num

theorem unitStrains2_eq (k : Fin 3) :
    (unitStrains2.getD k 0).submatrix (Fin.castLE (by norm_num : 2 ≤ 3)) (Fin.castLE (by norm_num : 2 ≤ 3)) =
      strain pairs2 (Pi.single k 1) := by
  funext i j
  fin_cases k <;> fin_cases i <;> fin_cases j <;>
    simp [unitStrains2, strain, pairs2, Fin.sum_univ_three, Pi.single_apply] <;> norm_num

theorem voigt3_eq (s : Matrix (Fin 3) (Fin 3) ℝ) (i : Fin 6) : (voigt 3 s).getD i 0 = s (pairs3 i).1 (pairs3 i).2 := by
  fin_cases i <;> simp [voigt, sigmaAt, pairs3]

theorem voigt2_eq (s : Matrix (Fin 2) (Fin 2) ℝ) (i : Fin 3) : (voigt 2 s).getD i 0 = s (pairs2 i).1 (pairs2 i).2 := by
  fin_cases i <;> simp [voigt, sigmaAt, pairs2]

theorem transpose_entry (n : ℕ) (cs : List (List ℝ)) {i k : ℕ} (hi : i < n) (hk : k < cs.length) :
    ((transpose n cs).getD i []).getD k 0 = (cs.getD k []).getD i 0 := by
  simp [transpose, List.getD_eq_getElem?_getD, hi, hk]

/-- What `solve` returns, case by case. -/
theorem case_data {m : ℕ} {pairs : Fin m → Fin d × Fin d} (hL : Layout d m pairs) {sc : Field d → Field d} {r : Result d}
    (hr : homogenize d pts X sc = .ok r) (k : Fin m) :
    r.uMacros.getD k 0 = affine X (strain pairs (Pi.single k 1)) ∧
    r.uTotals.getD k 0 = sc (affine X (strain pairs (Pi.single k 1))) ∧
    ∀ i : Fin m, entry r i k = meanStress pts (r.uTotals.getD k 0) (pairs i).1 (pairs i).2 := by
  cases hL with
  | plane =>
    have hk : k.1 < unitStrains2.length := k.2
    have hm : macroDisplacement X (unitStrains2.getD k 0) = affine X (strain pairs2 (Pi.single k 1)) := by
      rw [macro_affine (by norm_num : 2 ≤ 3), unitStrains2_eq]
    rw [List.getD_eq_getElem _ _ hk] at hm
    simp only [homogenize, unitStrains] at hr
    norm_num at hr
    subst hr
    have h2 : ((unitStrains2.map (macroDisplacement X)).map sc).getD k 0 = sc (affine X (strain pairs2 (Pi.single k 1))) := by
      rw [List.getD_eq_getElem _ _ (by simpa using hk), List.getElem_map, List.getElem_map, hm]
    refine ⟨?_, ?_, fun i => ?_⟩
    · rw [List.getD_eq_getElem _ _ (by simpa using hk), List.getElem_map, hm]
    · simpa using h2
    · unfold entry
      rw [transpose_entry _ _ (by simp [voigt]) (by simpa using hk), List.getD_eq_getElem _ [] (by simpa using hk)]
      simp only [List.getElem_map]
      refine (voigt2_eq _ i).trans ?_
      rw [List.getD_eq_getElem _ _ (by simpa using hk)]
      simp
  | space =>
    have hk : k.1 < unitStrains3.length := k.2
    have hm : macroDisplacement X (unitStrains3.getD k 0) = affine X (strain pairs3 (Pi.single k 1)) := by
      rw [macro_affine (le_refl 3), unitStrains3_eq]
    rw [List.getD_eq_getElem _ _ hk] at hm
    simp only [homogenize, unitStrains] at hr
    norm_num at hr
    subst hr
    have h2 : ((unitStrains3.map (macroDisplacement X)).map sc).getD k 0 = sc (affine X (strain pairs3 (Pi.single k 1))) := by
      rw [List.getD_eq_getElem _ _ (by simpa using hk), List.getElem_map, List.getElem_map, hm]
    refine ⟨?_, ?_, fun i => ?_⟩
    · rw [List.getD_eq_getElem _ _ (by simpa using hk), List.getElem_map, hm]
    · simpa using h2
    · unfold entry
      rw [transpose_entry _ _ (by simp [voigt]) (by simpa using hk), List.getD_eq_getElem _ [] (by simpa using hk)]
      simp only [List.getElem_map]
      refine (voigt3_eq _ i).trans ?_
      rw [List.getD_eq_getElem _ _ (by simpa using hk)]
      simp

/-! ## The macroscopic cases -/

/-- **C117.** The affine displacement of a macroscopic strain has that strain as its gradient at every quadrature point of the
cell, in the plane and in space. -/
theorem C117_macro_gradient (h : Cell pts X P) (hd : d ≤ 3) (eps : Matrix (Fin 3) (Fin 3) ℝ) {q : HPoint d} (hq : q ∈ pts) (i j : Fin d) :
    gradAt q (macroDisplacement X eps) i j = eps (Fin.castLE hd i) (Fin.castLE hd j) := by
  rw [macro_affine hd, haffine_grad h hq, Matrix.submatrix_apply]

/-- **C117.** The cases are the unit strains in Voigt order with engineering shear, as many as `C_hom` has rows and columns. -/
theorem C117_cases {m : ℕ} {pairs : Fin m → Fin d × Fin d} (hL : Layout d m pairs) {sc : Field d → Field d} {r : Result d}
    (hr : homogenize d pts X sc = .ok r) :
    r.uMacros.length = m ∧ r.uTotals.length = m ∧ r.cHom.length = m ∧ (∀ row ∈ r.cHom, row.length = m) ∧
    ∀ k : Fin m, ∀ n i, r.uMacros.getD k 0 n i = ∑ j, strain pairs (Pi.single k 1) i j * X n j := by
  refine ⟨?_, ?_, ?_, ?_, fun k n i => by rw [(case_data hL hr k).1]; rfl⟩
  all_goals
    cases hL <;> simp only [homogenize, unitStrains] at hr <;> norm_num at hr <;> subst hr <;>
      simp [unitStrains2, unitStrains3, transpose, voigt]

/-- **C122** (what holds). A dimension other than 2 and 3 is refused; that it is the problem's is not checked. -/
theorem C122_dimension_partial (dim : ℕ) (sc : Field d → Field d) (h2 : dim ≠ 2) (h3 : dim ≠ 3) :
    homogenize dim pts X sc = .error .valueError := by
  simp [homogenize, h2, h3]

/-! ## The homogenised stiffness -/

section stiffness
variable {m : ℕ} {pairs : Fin m → Fin d × Fin d} {solve : Solver} {r : Result d}

/-- **C118.** Every total displacement returned is the affine field of its case plus a periodic fluctuation, in equilibrium. -/
theorem C118_equilibrium (hL : Layout d m pairs) (h : Cell pts X P) (hs : Exact P.M solve)
    (hr : homogenize d pts X (krylovCase solve pts P) = .ok r) (k : Fin m) :
    Equilibrium pts X P (strain pairs (Pi.single k 1)) (r.uTotals.getD k 0) := by
  rw [(case_data hL hr k).2.1]
  exact equilibrium_of_reduced h _ (hs _ _ (reducedOp_semidefinite h) (C118_solvable h _))

theorem equilibrium_sum (h : Cell pts X P) {E : Fin m → Matrix (Fin d) (Fin d) ℝ} {u : Fin m → Field d}
    (hu : ∀ k, Equilibrium pts X P (E k) (u k)) (e : Fin m → ℝ) (s : Finset (Fin m)) :
    Equilibrium pts X P (∑ k ∈ s, e k • E k) (∑ k ∈ s, e k • u k) := by
  classical
  induction s using Finset.induction_on with
  | empty =>
    refine ⟨fun n _ m _ i j _ => by simp, fun v _ => ?_⟩
    have : work pts ((0 : ℝ) • (0 : Field d)) v = 0 := by rw [work_smul_left h.elastic, zero_mul]
    simpa using this
  | insert a s ha ih =>
    rw [Finset.sum_insert ha, Finset.sum_insert ha]
    exact ((hu a).smul h _).add h ih

theorem meanStress_sum (h : Cell pts X P) (u : Fin m → Field d) (e : Fin m → ℝ) (s : Finset (Fin m)) :
    meanStress pts (∑ k ∈ s, e k • u k) = ∑ k ∈ s, e k • meanStress pts (u k) := by
  classical
  induction s using Finset.induction_on with
  | empty =>
    have := meanStress_smul h.elastic 0 (0 : Field d)
    simpa using this
  | insert a s ha ih =>
    rw [Finset.sum_insert ha, Finset.sum_insert ha, meanStress_add h.elastic, meanStress_smul h.elastic, ih]

/-- What any way of solving the cases must deliver: equilibria, and their mean stresses as columns. -/
structure Solved (pts : List (HPoint d)) (X : Field d) (P : Tie d) (pairs : Fin m → Fin d × Fin d) (r : Result d) : Prop where
  eq : ∀ k : Fin m, Equilibrium pts X P (strain pairs (Pi.single k 1)) (r.uTotals.getD k 0)
  col : ∀ i k : Fin m, entry r i k = meanStress pts (r.uTotals.getD k 0) (pairs i).1 (pairs i).2

theorem krylov_solved (hL : Layout d m pairs) (h : Cell pts X P) (hs : Exact P.M solve)
    (hr : homogenize d pts X (krylovCase solve pts P) = .ok r) : Solved pts X P pairs r :=
  ⟨C118_equilibrium hL h hs hr, fun i k => (case_data hL hr k).2.2 i⟩

theorem Solved.law (h : Cell pts X P) (hr : Solved pts X P pairs r) (e : Fin m → ℝ) {u : Field d}
    (hu : Equilibrium pts X P (strain pairs e) u) (i : Fin m) :
    meanStress pts u (pairs i).1 (pairs i).2 = ∑ k : Fin m, entry r i k * e k := by
  have h1 := equilibrium_sum h hr.eq e Finset.univ
  rw [← strain_sum] at h1
  rw [meanStress_unique h hu h1, meanStress_sum h, Matrix.sum_apply]
  refine Finset.sum_congr rfl fun k _ => ?_
  rw [hr.col, Matrix.smul_apply, smul_eq_mul, mul_comm]

theorem Solved.form (h : Cell pts X P) (hr : Solved pts X P pairs r) (e f : Fin m → ℝ) {u v : Field d}
    (hu : Equilibrium pts X P (strain pairs e) u) (hv : Equilibrium pts X P (strain pairs f) v) :
    volume pts * ∑ i : Fin m, ∑ k : Fin m, f i * entry r i k * e k = work pts u v := by
  rw [hill h hu hv.periodic, ddot_strain pairs (meanStress_symm h.elastic u)]
  congr 1
  refine Finset.sum_congr rfl fun i _ => ?_
  rw [hr.law h e hu, Finset.sum_mul]
  exact Finset.sum_congr rfl fun k _ => by ring

theorem Solved.exists_eq (h : Cell pts X P) (hr : Solved pts X P pairs r) (e : Fin m → ℝ) : ∃ u, Equilibrium pts X P (strain pairs e) u := by
  have h1 := equilibrium_sum h hr.eq e Finset.univ
  rw [← strain_sum] at h1
  exact ⟨_, h1⟩

/-- **C118.** `C_hom` is the effective law of the cell: under any macroscopic strain, every equilibrium has the mean stress
`C_hom e`. -/
theorem C118_effective_law (hL : Layout d m pairs) (h : Cell pts X P) (hs : Exact P.M solve)
    (hr : homogenize d pts X (krylovCase solve pts P) = .ok r) (e : Fin m → ℝ) {u : Field d}
    (hu : Equilibrium pts X P (strain pairs e) u) (i : Fin m) :
    (pts.map fun q => q.w * q.stress (gradAt q u) (pairs i).1 (pairs i).2).sum / (pts.map (·.w)).sum =
      ∑ k : Fin m, entry r i k * e k :=
  (krylov_solved hL h hs hr).law h e hu i

/-- **C118.** The macroscopic energy is the energy of the cell: `V fᵀ C_hom e = ∫ σ(∇u_e) : ∇u_f`. -/
theorem C118_energy (hL : Layout d m pairs) (h : Cell pts X P) (hs : Exact P.M solve)
    (hr : homogenize d pts X (krylovCase solve pts P) = .ok r) (e f : Fin m → ℝ) {u v : Field d}
    (hu : Equilibrium pts X P (strain pairs e) u) (hv : Equilibrium pts X P (strain pairs f) v) :
    (pts.map (·.w)).sum * ∑ i : Fin m, ∑ k : Fin m, f i * entry r i k * e k = work pts u v :=
  (krylov_solved hL h hs hr).form h e f hu hv

theorem Solved.symm (h : Cell pts X P) (hr : Solved pts X P pairs r) (i k : Fin m) : entry r i k = entry r k i := by
  have hV : volume pts ≠ 0 := h.volume.ne'
  have hf : ∀ a b : Fin m, volume pts * entry r a b = work pts (r.uTotals.getD b 0) (r.uTotals.getD a 0) := by
    intro a b
    rw [← hr.form h _ _ (hr.eq b) (hr.eq a)]
    congr 1
    rw [Finset.sum_eq_single a, Finset.sum_eq_single b]
    · simp
    · intro l _ hl; simp [Pi.single_eq_of_ne hl]
    · simp
    · intro l _ hl; simp [Pi.single_eq_of_ne hl]
    · simp
  have := hf i k
  rw [work_comm h.elastic, ← hf k i] at this
  exact mul_left_cancel₀ hV this

/-- **C118.** `C_hom` is symmetric. -/
theorem C118_symmetric (hL : Layout d m pairs) (h : Cell pts X P) (hs : Exact P.M solve)
    (hr : homogenize d pts X (krylovCase solve pts P) = .ok r) (i k : Fin m) : entry r i k = entry r k i :=
  (krylov_solved hL h hs hr).symm h i k

/-- **C118.** `C_hom` is positive semidefinite. -/
theorem C118_semidefinite (hL : Layout d m pairs) (h : Cell pts X P) (hs : Exact P.M solve)
    (hr : homogenize d pts X (krylovCase solve pts P) = .ok r) (e : Fin m → ℝ) :
    0 ≤ ∑ i : Fin m, ∑ k : Fin m, e i * entry r i k * e k := by
  have hr' := krylov_solved hL h hs hr
  obtain ⟨u, hu⟩ := hr'.exists_eq h e
  have h1 := hr'.form h e e hu hu
  have h2 := work_nonneg h.elastic h.weight u
  rw [← h1] at h2
  exact nonneg_of_mul_nonneg_right h2 h.volume

end stiffness
/-! ## Bounds -/

/-- The mean gradient of every periodic field vanishes: the cell fills its box and integrates gradients exactly. -/
def Spec.Homog.Closed (pts : List (HPoint d)) (P : Tie d) : Prop :=
  ∀ v, Periodic P v → ∀ i j, (pts.map fun q => q.w * gradAt q v i j).sum = 0

theorem work_sub_sq (h : Cell pts X P) (u p : Field d) :
    work pts (u + (-1 : ℝ) • p) (u + (-1 : ℝ) • p) = work pts u u - 2 * work pts u p + work pts p p := by
  rw [work_add_right, work_add_left h.elastic, work_add_left h.elastic, work_smul_left h.elastic, work_smul_right, work_smul_right,
    work_smul_left h.elastic, work_comm h.elastic p u]
  ring

/-- An equilibrium has the least energy among the fields with its macroscopic strain. -/
theorem energy_min (h : Cell pts X P) {E : Matrix (Fin d) (Fin d) ℝ} {u v : Field d} (hu : Equilibrium pts X P E u)
    (hv : Periodic P fun n i => v n i - ∑ j, E i j * X n j) : work pts u u ≤ work pts v v := by
  have hp : Periodic P (u + (-1 : ℝ) • v) := by
    intro n hn m hm i j hc
    have h1 := hu.periodic n hn m hm i j hc
    have h2 := hv n hn m hm i j hc
    simp only [Pi.add_apply, Pi.smul_apply, smul_eq_mul] at h1 h2 ⊢
    linarith
  have hz := hu.balance _ hp
  have h1 : v = u + (-1 : ℝ) • (u + (-1 : ℝ) • v) := by
    funext n i
    simp only [Pi.add_apply, Pi.smul_apply, smul_eq_mul]
    ring
  have h2 := work_sub_sq h u (u + (-1 : ℝ) • v)
  rw [← h1, hz] at h2
  have := work_nonneg h.elastic h.weight (u + (-1 : ℝ) • v)
  linarith

theorem affine_periodic (X : Field d) (P : Tie d) (E : Matrix (Fin d) (Fin d) ℝ) :
    Periodic P fun n i => affine X E n i - ∑ j, E i j * X n j := by
  intro n _ m _ i j _
  simp [affine]

theorem work_affine_affine (h : Cell pts X P) (E : Matrix (Fin d) (Fin d) ℝ) :
    work pts (affine X E) (affine X E) = (pts.map fun q => q.w * ddot (q.stress E) E).sum := by
  unfold work
  congr 1
  exact List.map_congr_left fun q hq => by rw [haffine_grad h hq]

theorem list_zero_of_sum {l : List ℝ} (h : ∀ x ∈ l, 0 ≤ x) (hs : l.sum = 0) (x : ℝ) (hx : x ∈ l) : x = 0 := by
  have h1 := List.single_le_sum h x hx
  rw [hs] at h1
  exact le_antisymm h1 (h x hx)

section bounds
variable {m : ℕ} {pairs : Fin m → Fin d × Fin d} {solve solve' : Solver} {r r' : Result d}

/-- **C119.** Voigt's bound: `C_hom` never exceeds the volume average of the material stiffnesses. -/
theorem C119_voigt_bound (hL : Layout d m pairs) (h : Cell pts X P) (hs : Exact P.M solve)
    (hr : homogenize d pts X (krylovCase solve pts P) = .ok r) (e : Fin m → ℝ) :
    ∑ i : Fin m, ∑ k : Fin m, e i * entry r i k * e k ≤
      (pts.map fun q => q.w * ddot (q.stress (strain pairs e)) (strain pairs e)).sum / (pts.map (·.w)).sum := by
  have hr' := krylov_solved hL h hs hr
  obtain ⟨u, hu⟩ := hr'.exists_eq h e
  rw [le_div_iff₀ h.volume, mul_comm, ← work_affine_affine h]
  have := hr'.form h e e hu hu
  unfold volume at this
  rw [this]
  exact energy_min h hu (affine_periodic X P _)

theorem mean_grad (h : Cell pts X P) (hc : Closed pts P) {E : Matrix (Fin d) (Fin d) ℝ} {u : Field d}
    (hu : Periodic P fun n i => u n i - ∑ j, E i j * X n j) (i j : Fin d) :
    (pts.map fun q => q.w * gradAt q u i j).sum = volume pts * E i j := by
  have h1 : u = affine X E + fun n i => u n i - ∑ j, E i j * X n j := by
    funext n i
    simp [affine]
  have h2 : ∀ q ∈ pts, q.w * gradAt q u i j = q.w * E i j + q.w * gradAt q (fun n i => u n i - ∑ j, E i j * X n j) i j := by
    intro q hq
    conv_lhs => rw [h1]
    rw [hgrad_add, haffine_grad h hq, Matrix.add_apply, mul_add]
  rw [List.map_congr_left h2, List.sum_map_add, hc _ hu, add_zero, volume, sum_list_mul]

/-- **C119.** Reuss's bound: for every constant stress `S` and strains `A` that carry it in the materials,
`2 S : E - ⟨S : A⟩` never exceeds `eᵀ C_hom e`. -/
theorem C119_reuss_bound (hL : Layout d m pairs) (h : Cell pts X P) (hc : Closed pts P) (hs : Exact P.M solve)
    (hr : homogenize d pts X (krylovCase solve pts P) = .ok r) (e : Fin m → ℝ) (S : Matrix (Fin d) (Fin d) ℝ)
    (A : HPoint d → Matrix (Fin d) (Fin d) ℝ) (hA : ∀ q ∈ pts, q.stress (A q) = S) :
    2 * ddot S (strain pairs e) - (pts.map fun q => q.w * ddot S (A q)).sum / (pts.map (·.w)).sum ≤
      ∑ i : Fin m, ∑ k : Fin m, e i * entry r i k * e k := by
  have hr' := krylov_solved hL h hs hr
  obtain ⟨u, hu⟩ := hr'.exists_eq h e
  have hf := hr'.form h e e hu hu
  have hV : 0 < volume pts := h.volume
  have hpt : ∀ q ∈ pts, q.w * (2 * ddot S (gradAt q u) - ddot S (A q)) ≤ q.w * ddot (q.stress (gradAt q u)) (gradAt q u) := by
    intro q hq
    refine mul_le_mul_of_nonneg_left ?_ (h.weight q hq)
    have h0 := (h.elastic q hq).nonneg (gradAt q u + (-1 : ℝ) • A q)
    rw [(h.elastic q hq).add, (h.elastic q hq).smul, ddot_add_right, ddot_add_left, ddot_add_left, ddot_smul_right, ddot_smul_right,
      ddot_smul_left, ddot_smul_left, (h.elastic q hq).major (gradAt q u) (A q), hA q hq] at h0
    linarith
  have h1 : (pts.map fun q => q.w * (2 * ddot S (gradAt q u) - ddot S (A q))).sum ≤ work pts u u :=
    List.sum_le_sum fun q hq => hpt q hq
  have h2 : (pts.map fun q => q.w * ddot S (gradAt q u)).sum = volume pts * ddot S (strain pairs e) := by
    simp only [ddot, Finset.mul_sum]
    rw [← sum_range_list Finset.univ]
    refine Finset.sum_congr rfl fun i _ => ?_
    rw [← sum_range_list Finset.univ]
    refine Finset.sum_congr rfl fun j _ => ?_
    have := mean_grad h hc hu.periodic i j
    rw [show (fun q : HPoint d => q.w * (S i j * gradAt q u i j)) = fun q => S i j * (q.w * gradAt q u i j) by funext q; ring,
      List.sum_map_mul_left, this]
    ring
  have h3 : (pts.map fun q => q.w * (2 * ddot S (gradAt q u) - ddot S (A q))).sum =
      2 * (volume pts * ddot S (strain pairs e)) - (pts.map fun q => q.w * ddot S (A q)).sum := by
    rw [← h2, ← List.sum_map_mul_left, eq_sub_iff_add_eq, ← List.sum_map_add]
    congr 1
    exact List.map_congr_left fun q _ => by ring
  rw [h3, ← hf] at h1
  rw [show (pts.map (·.w)).sum = volume pts from rfl, sub_le_iff_le_add, ← sub_le_iff_le_add', le_div_iff₀ hV]
  linarith

/-- **C119.** Stiffer materials give a stiffer cell. -/
theorem C119_monotone (hL : Layout d m pairs) (s : HPoint d → Matrix (Fin d) (Fin d) ℝ → Matrix (Fin d) (Fin d) ℝ)
    (h : Cell pts X P) (h' : Cell (pts.map fun q => { q with stress := s q }) X P) (hs : Exact P.M solve) (hs' : Exact P.M solve')
    (hle : ∀ q ∈ pts, ∀ A, ddot (q.stress A) A ≤ ddot (s q A) A)
    (hr : homogenize d pts X (krylovCase solve pts P) = .ok r)
    (hr' : homogenize d (pts.map fun q => { q with stress := s q }) X
      (krylovCase solve' (pts.map fun q => { q with stress := s q }) P) = .ok r') (e : Fin m → ℝ) :
    ∑ i : Fin m, ∑ k : Fin m, e i * entry r i k * e k ≤ ∑ i : Fin m, ∑ k : Fin m, e i * entry r' i k * e k := by
  have k1 := krylov_solved hL h hs hr
  have k2 := krylov_solved hL h' hs' hr'
  obtain ⟨u, hu⟩ := k1.exists_eq h e
  obtain ⟨v, hv⟩ := k2.exists_eq h' e
  have f1 := k1.form h e e hu hu
  have f2 := k2.form h' e e hv hv
  have hVeq : volume (pts.map fun q => { q with stress := s q }) = volume pts := by
    simp [volume, List.map_map, Function.comp_def]
  have hle' : work pts v v ≤ work (pts.map fun q => { q with stress := s q }) v v := by
    unfold work
    rw [List.map_map]
    refine List.sum_le_sum fun q hq => ?_
    exact mul_le_mul_of_nonneg_left (hle q hq _) (h.weight q hq)
  have := energy_min h hu hv.periodic
  rw [hVeq] at f2
  refine le_of_mul_le_mul_left ?_ (show 0 < volume pts from h.volume)
  rw [f1, f2]
  linarith

/-- **C119.** A cell of one material has that material's stiffness. -/
theorem C119_homogeneous (hL : Layout d m pairs) (h : Cell pts X P) (hc : Closed pts P) (hs : Exact P.M solve)
    (hr : homogenize d pts X (krylovCase solve pts P) = .ok r) (σ : Matrix (Fin d) (Fin d) ℝ → Matrix (Fin d) (Fin d) ℝ)
    (hσ : ∀ q ∈ pts, q.stress = σ) (i k : Fin m) :
    entry r i k = σ (strain pairs (Pi.single k 1)) (pairs i).1 (pairs i).2 := by
  have k1 := krylov_solved hL h hs hr
  have hE : ∀ E, Equilibrium pts X P E (affine X E) := by
    intro E
    refine ⟨affine_periodic X P E, fun v hv => ?_⟩
    have h1 : work pts (affine X E) v = (pts.map fun q => q.w * ddot (σ E) (gradAt q v)).sum := by
      unfold work
      congr 1
      exact List.map_congr_left fun q hq => by rw [haffine_grad h hq, hσ q hq]
    rw [h1]
    simp only [ddot, Finset.mul_sum]
    rw [← sum_range_list Finset.univ]
    refine Finset.sum_eq_zero fun i _ => ?_
    rw [← sum_range_list Finset.univ]
    refine Finset.sum_eq_zero fun j _ => ?_
    rw [show (fun q : HPoint d => q.w * (σ E i j * gradAt q v i j)) = fun q => σ E i j * (q.w * gradAt q v i j) by funext q; ring,
      List.sum_map_mul_left, hc v hv, mul_zero]
  rw [k1.col, meanStress_unique h (k1.eq k) (hE _)]
  unfold meanStress
  have h2 : ∀ q ∈ pts, q.w * q.stress (gradAt q (affine X (strain pairs (Pi.single k 1)))) (pairs i).1 (pairs i).2 =
      q.w * σ (strain pairs (Pi.single k 1)) (pairs i).1 (pairs i).2 := by
    intro q hq
    rw [haffine_grad h hq, hσ q hq]
  rw [List.map_congr_left h2, ← sum_list_mul, mul_div_assoc, mul_comm, div_mul_eq_mul_div]
  have hV : volume pts ≠ 0 := h.volume.ne'
  exact mul_div_cancel_right₀ _ hV

/-- **C119.** `C_hom` is positive definite when every point has a positive weight and a material that resists every strain. -/
theorem C119_definite (hL : Layout d m pairs) (h : Cell pts X P) (hc : Closed pts P) (hs : Exact P.M solve)
    (hr : homogenize d pts X (krylovCase solve pts P) = .ok r) (hw : ∀ q ∈ pts, 0 < q.w)
    (hpos : ∀ q ∈ pts, ∀ A, ddot (q.stress A) A = 0 → ∀ i j, A i j + A j i = 0) (e : Fin m → ℝ) (he : e ≠ 0) :
    0 < ∑ i : Fin m, ∑ k : Fin m, e i * entry r i k * e k := by
  have k1 := krylov_solved hL h hs hr
  obtain ⟨u, hu⟩ := k1.exists_eq h e
  have hf := k1.form h e e hu hu
  have hV : 0 < volume pts := h.volume
  rcases (C118_semidefinite hL h hs hr e).lt_or_eq with hlt | heq
  · exact hlt
  exfalso
  rw [← heq, mul_zero] at hf
  have hz : ∀ q ∈ pts, ddot (q.stress (gradAt q u)) (gradAt q u) = 0 := by
    intro q hq
    have hall : ∀ x ∈ pts.map fun q => q.w * ddot (q.stress (gradAt q u)) (gradAt q u), 0 ≤ x := by
      intro x hx
      obtain ⟨q', hq', rfl⟩ := List.mem_map.1 hx
      exact mul_nonneg (h.weight q' hq') ((h.elastic q' hq').nonneg _)
    have := list_zero_of_sum hall hf.symm _ (List.mem_map.2 ⟨q, hq, rfl⟩)
    rcases mul_eq_zero.1 this with h0 | h0
    · exact absurd h0 (hw q hq).ne'
    · exact h0
  have hE : ∀ i j, strain pairs e i j + strain pairs e j i = 0 := by
    intro i j
    have h1 := mean_grad h hc hu.periodic i j
    have h2 := mean_grad h hc hu.periodic j i
    have h3 : (pts.map fun q => q.w * gradAt q u i j).sum + (pts.map fun q => q.w * gradAt q u j i).sum = 0 := by
      rw [← List.sum_map_add]
      have : ∀ q ∈ pts, q.w * gradAt q u i j + q.w * gradAt q u j i = 0 := by
        intro q hq
        rw [← mul_add, hpos q hq _ (hz q hq) i j, mul_zero]
      rw [List.map_congr_left this]
      simp
    rw [h1, h2, ← mul_add] at h3
    exact (mul_eq_zero.1 h3).resolve_left hV.ne'
  apply he
  funext k
  have hk := hE (pairs k).1 (pairs k).2
  revert hk
  cases hL with
  | plane =>
    intro hk
    fin_cases k <;> simp [strain, pairs2, Fin.sum_univ_three] at hk ⊢ <;> linarith
  | space =>
    intro hk
    fin_cases k <;> simp [strain, pairs3, Fin.sum_univ_six] at hk ⊢ <;> linarith

end bounds
end Verif.Props
