import Verif.Props.CmgLevels
import Mathlib.LinearAlgebra.Matrix.PosDef

/-!
# Smoothing (C111) and the conjugate gradient loop (C112) of the geometric multigrid solver
-/

namespace Verif.Props
open Verif.Model Verif.Model.Cmg Verif.Lemmas Matrix

namespace Spec

/-- The energy form of a level: the sum over its cells of modulus times `uₑᵀ KE vₑ`. -/
noncomputable def levelForm (KE : Matrix (Fin 8 × Fin 3) (Fin 8 × Fin 3) ℝ) (els : List ((Fin 8 → ℕ) × ℝ)) (u v : Vec) : ℝ :=
  (els.map fun el => el.2 * ((fun i : Fin 8 × Fin 3 => u (el.1 i.1) i.2) ⬝ᵥ (KE *ᵥ fun i : Fin 8 × Fin 3 => v (el.1 i.1) i.2))).sum

/-- Potential energy of a displacement under a load. -/
noncomputable def potential (KE : Matrix (Fin 8 × Fin 3) (Fin 8 × Fin 3) ℝ) (l : SLevel) (b u : Vec) : ℝ :=
  levelForm KE l.els u u / 2 - ∑ n ∈ Finset.range l.nn, ∑ c : Fin 3, b n c * u n c

/-- A level without padding: cells of positive modulus with eight different corners among the nodes, no two corners of a cell
of one colour, every free node on a cell. -/
structure Sound (l : SLevel) : Prop where
  modulus : ∀ el ∈ l.els, 0 < el.2
  range : ∀ el ∈ l.els, ∀ a, el.1 a < l.nn
  colour : ∀ el ∈ l.els, ∀ a b, l.color (el.1 a) = l.color (el.1 b) → a = b
  covered : ∀ n, l.free n → n < l.nn ∧ ∃ el ∈ l.els, ∃ a, el.1 a = n
  eight : ∀ n, l.color n < 8

end Spec

variable {KE : Matrix (Fin 8 × Fin 3) (Fin 8 × Fin 3) ℝ}

/-! ## Masks -/

theorem mask_mask (l : SLevel) (u : Vec) : mask l (mask l u) = mask l u := by
  ext n c; simp only [mask]; split_ifs <;> rfl

theorem mask_fixed {l : SLevel} {u : Vec} (h : mask l u = u) {n : ℕ} (hn : ¬ l.free n) (c : Fin 3) : u n c = 0 := by
  rw [← h]; simp [mask, hn]

theorem mask_of_fixed {l : SLevel} {u : Vec} (h : ∀ n, ¬ l.free n → ∀ c, u n c = 0) : mask l u = u := by
  ext n c
  by_cases hn : l.free n
  · simp [mask, hn]
  · simp [mask, hn, h n hn c]

theorem mask_mv (l : SLevel) (u : Vec) : mask l (mv KE l u) = mv KE l u := by
  ext n c; simp only [mask, mv]; split_ifs <;> rfl

theorem mask_add (l : SLevel) (u v : Vec) : mask l (u + v) = mask l u + mask l v := by
  ext n c; simp only [mask, Pi.add_apply]; split_ifs <;> simp

theorem mask_sub (l : SLevel) (u v : Vec) : mask l (u - v) = mask l u - mask l v := by
  ext n c; simp only [mask, Pi.sub_apply]; split_ifs <;> simp

theorem mask_smul (l : SLevel) (a : ℝ) (u : Vec) : mask l (a • u) = a • mask l u := by
  ext n c; simp only [mask, Pi.smul_apply]; split_ifs <;> simp

theorem mask_zero (l : SLevel) : mask l 0 = 0 := by
  ext n c; simp [mask]

/-! ## The operator -/

theorem mv_add (l : SLevel) (u v : Vec) : mv KE l (u + v) = mv KE l u + mv KE l v := by
  ext n c
  simp only [mv, Pi.add_apply]
  split_ifs with h
  · rw [← List.sum_map_add]
    congr 1
    refine List.map_congr_left fun el _ => ?_
    rw [← Finset.sum_add_distrib]
    refine Finset.sum_congr rfl fun a _ => ?_
    split_ifs
    · simp only [add_mul, Finset.sum_add_distrib, mul_add]
    · simp
  · simp

theorem mv_smul (l : SLevel) (t : ℝ) (u : Vec) : mv KE l (t • u) = t • mv KE l u := by
  ext n c
  simp only [mv, Pi.smul_apply, smul_eq_mul]
  split_ifs with h
  · rw [← List.sum_map_mul_left]
    congr 1
    refine List.map_congr_left fun el _ => ?_
    rw [Finset.mul_sum]
    refine Finset.sum_congr rfl fun a _ => ?_
    split_ifs
    · simp only [Finset.mul_sum]
      refine Finset.sum_congr rfl fun j _ => ?_
      ring
    · simp
  · simp

theorem mv_zero (l : SLevel) : mv KE l 0 = 0 := by
  have := mv_smul (KE := KE) l 0 0
  simpa using this

theorem levelForm_symm (hs : KE.IsSymm) (els : List ((Fin 8 → ℕ) × ℝ)) (u v : Vec) :
    Spec.levelForm KE els u v = Spec.levelForm KE els v u := by
  unfold Spec.levelForm
  congr 1
  refine List.map_congr_left fun el _ => ?_
  rw [Matrix.dotProduct_mulVec, ← Matrix.mulVec_transpose, hs, dotProduct_comm]

theorem levelForm_add_right (els : List ((Fin 8 → ℕ) × ℝ)) (u v w : Vec) :
    Spec.levelForm KE els u (v + w) = Spec.levelForm KE els u v + Spec.levelForm KE els u w := by
  unfold Spec.levelForm
  rw [← List.sum_map_add]
  congr 1
  refine List.map_congr_left fun el _ => ?_
  rw [← mul_add, ← dotProduct_add, ← Matrix.mulVec_add]
  rfl

/-- Testing the operator with an array that vanishes at fixed nodes gives the energy form. -/
theorem dot_mv (l : SLevel) (hr : ∀ el ∈ l.els, ∀ a, el.1 a < l.nn) (u v : Vec) (hv : mask l v = v) :
    dot l.nn v (mv KE l u) = Spec.levelForm KE l.els u v := by
  have h1 : ∀ n c, v n c * mv KE l u n c = (l.els.map fun el => ∑ a : Fin 8, if el.1 a = n then
      v n c * (el.2 * ∑ j : Fin 8 × Fin 3, u (el.1 j.1) j.2 * KE j (a, c)) else 0).sum := by
    intro n c
    unfold mv
    by_cases h : l.free n
    · rw [if_pos h, ← List.sum_map_mul_left]
      congr 1
      refine List.map_congr_left fun el _ => ?_
      rw [Finset.mul_sum]
      refine Finset.sum_congr rfl fun a _ => ?_
      split_ifs <;> simp
    · rw [if_neg h, mask_fixed hv h c]
      simp
  unfold dot Spec.levelForm
  simp only [h1]
  have key : ∀ els : List ((Fin 8 → ℕ) × ℝ), (∀ el ∈ els, ∀ a, el.1 a < l.nn) →
      (∑ n ∈ Finset.range l.nn, ∑ c : Fin 3, (els.map fun el => ∑ a : Fin 8, if el.1 a = n then
        v n c * (el.2 * ∑ j : Fin 8 × Fin 3, u (el.1 j.1) j.2 * KE j (a, c)) else 0).sum) =
      (els.map fun el => el.2 * ((fun i : Fin 8 × Fin 3 => u (el.1 i.1) i.2) ⬝ᵥ (KE *ᵥ fun i : Fin 8 × Fin 3 => v (el.1 i.1) i.2))).sum := by
    intro els
    induction els with
    | nil => intro _; simp
    | cons el els ih =>
      intro h
      simp only [List.map_cons, List.sum_cons, Finset.sum_add_distrib]
      rw [ih fun e he => h e (List.mem_cons_of_mem _ he)]
      congr 1
      rw [Finset.sum_comm]
      simp only [Finset.sum_comm (s := Finset.range l.nn)]
      have e1 : ∀ (c : Fin 3) (a : Fin 8), (∑ n ∈ Finset.range l.nn, if el.1 a = n then
          v n c * (el.2 * ∑ j : Fin 8 × Fin 3, u (el.1 j.1) j.2 * KE j (a, c)) else 0) =
          v (el.1 a) c * (el.2 * ∑ j : Fin 8 × Fin 3, u (el.1 j.1) j.2 * KE j (a, c)) := fun c a =>
        sum_ite_index l.nn (el.1 a) (h el List.mem_cons_self a) fun n =>
          v n c * (el.2 * ∑ j : Fin 8 × Fin 3, u (el.1 j.1) j.2 * KE j (a, c))
      simp only [e1]
      rw [Finset.sum_comm]
      simp only [dotProduct, Matrix.mulVec, dotProduct, Finset.mul_sum]
      rw [← Fintype.sum_prod_type' (f := fun (a : Fin 8) (c : Fin 3) => ∑ j : Fin 8 × Fin 3,
        v (el.1 a) c * (el.2 * (u (el.1 j.1) j.2 * KE j (a, c)))), Finset.sum_comm]
      refine Finset.sum_congr rfl fun j _ => Finset.sum_congr rfl fun i _ => ?_
      ring
  exact key l.els hr

/-! ## The diagonal blocks -/

/-- Displacement of one corner only. -/
def oneCorner (a : Fin 8) (w : Fin 3 → ℝ) : Spec.CubeDisp := fun i => if i.1 = a then w i.2 else 0

theorem oneCorner_form (a : Fin 8) (w : Fin 3 → ℝ) :
    oneCorner a w ⬝ᵥ (KE *ᵥ oneCorner a w) = w ⬝ᵥ ((Matrix.of fun c c' => KE (a, c) (a, c')) *ᵥ w) := by
  simp only [dotProduct, Matrix.mulVec, dotProduct, oneCorner, Fintype.sum_prod_type]
  rw [Finset.sum_eq_single a]
  · refine Finset.sum_congr rfl fun c _ => ?_
    rw [if_pos rfl]
    congr 1
    rw [Finset.sum_eq_single a]
    · simp
    · intro b _ hb; simp [hb]
    · intro h; exact absurd (Finset.mem_univ _) h
  · intro b _ hb; simp [hb]
  · intro h; exact absurd (Finset.mem_univ _) h

theorem oneCorner_rigid (a : Fin 8) (w : Fin 3 → ℝ) (h : Spec.RigidMotion (oneCorner a w)) : w = 0 := by
  obtain ⟨t, r, h⟩ := h
  have h0 := h 0
  have h1 := h 1
  have h2 := h 2
  have h3 := h 3
  have h4 := h 4
  have h5 := h 5
  have h6 := h 6
  have h7 := h 7
  ext c
  fin_cases a <;> simp [corner, oneCorner] at h0 h1 h2 h3 h4 h5 h6 h7 <;> fin_cases c <;> simp <;> linarith [h0.1, h0.2.1, h0.2.2,
    h1.1, h1.2.1, h1.2.2, h2.1, h2.2.1, h2.2.2, h3.1, h3.2.1, h3.2.2, h4.1, h4.2.1, h4.2.2, h5.1, h5.2.1, h5.2.2,
    h6.1, h6.2.1, h6.2.2, h7.1, h7.2.1, h7.2.2]

/-- What the smoother needs of the element matrix. -/
structure Elastic (KE : Matrix (Fin 8 × Fin 3) (Fin 8 × Fin 3) ℝ) : Prop where
  symm : KE.IsSymm
  nonneg : ∀ u : Spec.CubeDisp, 0 ≤ u ⬝ᵥ (KE *ᵥ u)
  rigid : ∀ u : Spec.CubeDisp, u ⬝ᵥ (KE *ᵥ u) = 0 → Spec.RigidMotion u

theorem makeKE_elastic {nu : ℝ} (h1 : -1 < nu) (h2 : nu < 1 / 2) : Elastic (makeKE nu 1) := by
  obtain ⟨a, b, c, _⟩ := C108_rigid_kernel nu 1 one_pos h1 h2
  exact ⟨a, b, fun u => (c u).mp⟩

theorem diagBlock_form (l : SLevel) (n : ℕ) (w : Fin 3 → ℝ) :
    w ⬝ᵥ (diagBlock KE l n *ᵥ w) = (l.els.map fun el => ∑ a : Fin 8, if el.1 a = n then
      el.2 * (oneCorner a w ⬝ᵥ (KE *ᵥ oneCorner a w)) else 0).sum := by
  unfold diagBlock
  induction l.els with
  | nil => simp
  | cons el els ih =>
    simp only [List.map_cons, List.sum_cons, Matrix.add_mulVec, dotProduct_add, ih]
    congr 1
    rw [Matrix.sum_mulVec, dotProduct_sum]
    refine Finset.sum_congr rfl fun a _ => ?_
    split_ifs
    · rw [Matrix.smul_mulVec, dotProduct_smul, smul_eq_mul, oneCorner_form]
    · simp

theorem diagBlock_nonneg (hK : Elastic KE) (l : SLevel) (hE : ∀ el ∈ l.els, 0 < el.2) (n : ℕ) (w : Fin 3 → ℝ) :
    0 ≤ w ⬝ᵥ (diagBlock KE l n *ᵥ w) := by
  rw [diagBlock_form]
  apply List.sum_nonneg
  intro x hx
  rw [List.mem_map] at hx
  obtain ⟨el, hel, rfl⟩ := hx
  refine Finset.sum_nonneg fun a _ => ?_
  split_ifs
  · exact mul_nonneg (hE el hel).le (hK.nonneg _)
  · exact le_refl _

theorem diagBlock_pos (hK : Elastic KE) (l : SLevel) (hE : ∀ el ∈ l.els, 0 < el.2) (n : ℕ) (hn : ∃ el ∈ l.els, ∃ a, el.1 a = n)
    (w : Fin 3 → ℝ) (h : w ⬝ᵥ (diagBlock KE l n *ᵥ w) = 0) : w = 0 := by
  obtain ⟨el, hel, a, ha⟩ := hn
  rw [diagBlock_form] at h
  have hnn : ∀ x ∈ l.els.map (fun el => ∑ a : Fin 8, if el.1 a = n then
      el.2 * (oneCorner a w ⬝ᵥ (KE *ᵥ oneCorner a w)) else 0), 0 ≤ x := by
    intro x hx
    rw [List.mem_map] at hx
    obtain ⟨el, hel, rfl⟩ := hx
    refine Finset.sum_nonneg fun a _ => ?_
    split_ifs
    · exact mul_nonneg (hE el hel).le (hK.nonneg _)
    · exact le_refl _
  have hz := List.all_zero_of_le_zero_le_of_sum_eq_zero hnn h (List.mem_map.mpr ⟨el, hel, rfl⟩)
  have hz' := (Finset.sum_eq_zero_iff_of_nonneg (fun a _ => by
    split_ifs
    · exact mul_nonneg (hE el hel).le (hK.nonneg _)
    · exact le_refl _)).mp hz a (Finset.mem_univ _)
  rw [if_pos ha] at hz'
  rcases mul_eq_zero.mp hz' with h0 | h0
  · exact absurd h0 (hE el hel).ne'
  · exact oneCorner_rigid a w (hK.rigid _ h0)

theorem diagBlock_det (hK : Elastic KE) (l : SLevel) (hE : ∀ el ∈ l.els, 0 < el.2) (n : ℕ) (hn : ∃ el ∈ l.els, ∃ a, el.1 a = n) :
    IsUnit (diagBlock KE l n).det := by
  rw [isUnit_iff_ne_zero]
  intro h
  obtain ⟨w, hw, h0⟩ := Matrix.exists_mulVec_eq_zero_iff.mpr h
  exact hw (diagBlock_pos hK l hE n hn w (by rw [h0]; simp))

/-! ## Smoothing -/

/-- The correction made by one colour. -/
noncomputable def correction (KE : Matrix (Fin 8 × Fin 3) (Fin 8 × Fin 3) ℝ) (l : SLevel) (b : Vec) (c : ℕ) (u : Vec) : Vec := fun n i =>
  if l.free n then (if l.color n = c then (dinv KE l n *ᵥ resid KE l b u n) i else 0) else 0

theorem smoothColor_eq (l : SLevel) (b : Vec) (c : ℕ) (u : Vec) (hu : mask l u = u) :
    smoothColor KE l b c u = u + correction KE l b c u := by
  ext n i
  simp only [smoothColor, mask, correction, Pi.add_apply]
  by_cases h : l.free n
  · simp [h]
  · simp [h, mask_fixed hu h i]

theorem correction_mask (l : SLevel) (b : Vec) (c : ℕ) (u : Vec) : mask l (correction KE l b c u) = correction KE l b c u :=
  mask_of_fixed fun n hn i => by simp [correction, hn]

theorem mv_local (hK : Elastic KE) (l : SLevel) (hl : Spec.Sound l) (c : ℕ) (d : Vec) (hd : ∀ n, l.color n ≠ c → d n = 0) (n : ℕ)
    (hn : l.free n) (hc : l.color n = c) : mv KE l d n = diagBlock KE l n *ᵥ d n := by
  ext i
  simp only [mv, hn, if_true, diagBlock]
  have key : ∀ els : List ((Fin 8 → ℕ) × ℝ), (∀ el ∈ els, ∀ a b, l.color (el.1 a) = l.color (el.1 b) → a = b) →
      (els.map fun el => ∑ a : Fin 8, if el.1 a = n then el.2 * ∑ j : Fin 8 × Fin 3, d (el.1 j.1) j.2 * KE j (a, i) else 0).sum =
      (((els.map fun el => ∑ a : Fin 8, if el.1 a = n then el.2 • (Matrix.of fun c c' => KE (a, c) (a, c')) else 0).sum : Matrix (Fin 3) (Fin 3) ℝ) *ᵥ d n) i := by
    intro els
    induction els with
    | nil => intro _; simp
    | cons el els ih =>
      intro h
      simp only [List.map_cons, List.sum_cons, Matrix.add_mulVec, Pi.add_apply]
      rw [ih fun e he => h e (List.mem_cons_of_mem _ he)]
      congr 1
      rw [Matrix.sum_mulVec, Finset.sum_apply]
      refine Finset.sum_congr rfl fun a _ => ?_
      split_ifs with ha
      · rw [Matrix.smul_mulVec, Pi.smul_apply, smul_eq_mul]
        congr 1
        rw [Fintype.sum_prod_type, Finset.sum_eq_single a]
        · simp only [ha, Matrix.mulVec, dotProduct, Matrix.of_apply]
          refine Finset.sum_congr rfl fun k _ => ?_
          rw [hK.symm.apply, mul_comm]
        · intro b _ hb
          have hne : l.color (el.1 b) ≠ c := fun hcb =>
            hb (h el List.mem_cons_self b a (by rw [hcb, ha, hc]))
          simp [hd _ hne]
        · intro hh; exact absurd (Finset.mem_univ _) hh
      · simp
  exact key l.els hl.colour

theorem mv_correction (hK : Elastic KE) (l : SLevel) (hl : Spec.Sound l) (b : Vec) (c : ℕ) (u : Vec) (n : ℕ) (hn : l.free n)
    (hc : l.color n = c) : mv KE l (correction KE l b c u) n = resid KE l b u n := by
  rw [mv_local hK l hl c _ (fun m hm => by ext i; simp [correction, hm]) n hn hc]
  have hcorr : correction KE l b c u n = dinv KE l n *ᵥ resid KE l b u n := by
    ext i; simp [correction, hn, hc]
  have hdet := diagBlock_det hK l hl.modulus n (hl.covered n hn).2
  rw [hcorr, Matrix.mulVec_mulVec, dinv, if_pos hn, Matrix.mul_nonsing_inv _ hdet, Matrix.one_mulVec]

theorem dot_add_left (nn : ℕ) (x y z : Vec) : dot nn (x + y) z = dot nn x z + dot nn y z := by
  unfold dot
  simp only [Pi.add_apply, add_mul, Finset.sum_add_distrib]

theorem dot_sub_right (nn : ℕ) (x y z : Vec) : dot nn x (y - z) = dot nn x y - dot nn x z := by
  unfold dot
  simp only [Pi.sub_apply, mul_sub, Finset.sum_sub_distrib]

theorem dot_add_right (nn : ℕ) (x y z : Vec) : dot nn x (y + z) = dot nn x y + dot nn x z := by
  unfold dot
  simp only [Pi.add_apply, mul_add, Finset.sum_add_distrib]

theorem dot_comm (nn : ℕ) (x y : Vec) : dot nn x y = dot nn y x := by
  unfold dot
  simp only [mul_comm]

theorem dot_mask_right (l : SLevel) (x y : Vec) (hx : mask l x = x) : dot l.nn x (mask l y) = dot l.nn x y := by
  unfold dot
  refine Finset.sum_congr rfl fun n _ => Finset.sum_congr rfl fun c _ => ?_
  by_cases h : l.free n
  · simp [mask, h]
  · simp [mask_fixed hx h c]

theorem levelForm_add_self (hs : KE.IsSymm) (els : List ((Fin 8 → ℕ) × ℝ)) (u d : Vec) :
    Spec.levelForm KE els (u + d) (u + d) = Spec.levelForm KE els u u + 2 * Spec.levelForm KE els u d + Spec.levelForm KE els d d := by
  rw [levelForm_add_right, levelForm_symm hs els (u + d) u, levelForm_symm hs els (u + d) d, levelForm_add_right, levelForm_add_right,
    levelForm_symm hs els d u]
  ring

/-- The energy change of one colour. -/
theorem smoothColor_potential (hK : Elastic KE) (l : SLevel) (hl : Spec.Sound l) (b : Vec) (c : ℕ) (u : Vec) (hu : mask l u = u) :
    Spec.potential KE l b (smoothColor KE l b c u) =
      Spec.potential KE l b u - dot l.nn (correction KE l b c u) (resid KE l b u) / 2 := by
  set d := correction KE l b c u with hd
  have hdm : mask l d = d := correction_mask l b c u
  have e1 : dot l.nn d (resid KE l b u) = dot l.nn d b - Spec.levelForm KE l.els u d := by
    unfold resid
    rw [dot_mask_right l d _ hdm, dot_sub_right, dot_mv l hl.range u d hdm]
  have e2 : Spec.levelForm KE l.els d d = dot l.nn d (resid KE l b u) := by
    rw [← dot_mv l hl.range d d hdm]
    unfold dot
    refine Finset.sum_congr rfl fun n _ => Finset.sum_congr rfl fun i _ => ?_
    by_cases hn : l.free n
    · by_cases hc : l.color n = c
      · rw [hd, mv_correction hK l hl b c u n hn hc]
      · have : d n i = 0 := by simp [hd, correction, hc]
        rw [this]; ring
    · rw [mask_fixed hdm hn i]; ring
  rw [smoothColor_eq l b c u hu, ← hd]
  unfold Spec.potential
  rw [levelForm_add_self hK.symm]
  have e3 : (∑ n ∈ Finset.range l.nn, ∑ c : Fin 3, b n c * (u + d) n c) =
      (∑ n ∈ Finset.range l.nn, ∑ c : Fin 3, b n c * u n c) + dot l.nn d b := by
    rw [dot_comm]
    unfold dot
    simp only [Pi.add_apply, mul_add, Finset.sum_add_distrib]
  rw [e3]
  linarith

theorem dot_correction_nonneg (hK : Elastic KE) (l : SLevel) (hl : Spec.Sound l) (b : Vec) (c : ℕ) (u : Vec) :
    0 ≤ dot l.nn (correction KE l b c u) (resid KE l b u) ∧
      (dot l.nn (correction KE l b c u) (resid KE l b u) = 0 → ∀ n, l.free n → l.color n = c → resid KE l b u n = 0) := by
  have key : ∀ n, 0 ≤ ∑ i : Fin 3, correction KE l b c u n i * resid KE l b u n i ∧
      ((∑ i : Fin 3, correction KE l b c u n i * resid KE l b u n i) = 0 → l.free n → l.color n = c → resid KE l b u n = 0) := by
    intro n
    by_cases hn : l.free n
    · by_cases hc : l.color n = c
      · have hdet := diagBlock_det hK l hl.modulus n (hl.covered n hn).2
        have hr : resid KE l b u n = diagBlock KE l n *ᵥ correction KE l b c u n := by
          have hcorr : correction KE l b c u n = dinv KE l n *ᵥ resid KE l b u n := by
            ext i; simp [correction, hn, hc]
          rw [hcorr, Matrix.mulVec_mulVec, dinv, if_pos hn, Matrix.mul_nonsing_inv _ hdet, Matrix.one_mulVec]
        have hdot : (∑ i : Fin 3, correction KE l b c u n i * resid KE l b u n i) =
            correction KE l b c u n ⬝ᵥ (diagBlock KE l n *ᵥ correction KE l b c u n) := by
          rw [← hr]; rfl
        refine ⟨hdot ▸ diagBlock_nonneg hK l hl.modulus n _, fun h _ _ => ?_⟩
        rw [hdot] at h
        have := diagBlock_pos hK l hl.modulus n (hl.covered n hn).2 _ h
        rw [hr, this, Matrix.mulVec_zero]
      · simp [correction, hc]
    · simp [correction, hn]
  refine ⟨Finset.sum_nonneg fun n _ => (key n).1, fun h n hn hc => ?_⟩
  unfold dot at h
  rw [Finset.sum_eq_zero_iff_of_nonneg fun n _ => (key n).1] at h
  exact (key n).2 (h n (Finset.mem_range.mpr (hl.covered n hn).1)) hn hc

theorem smoothColor_mask (l : SLevel) (b : Vec) (c : ℕ) (u : Vec) : mask l (smoothColor KE l b c u) = smoothColor KE l b c u :=
  mask_mask _ _

/-- C111: the update of one colour is Gauss-Seidel: afterwards every free node of the colour is in equilibrium, no other node has
moved, and the potential energy has gone down, strictly unless the colour was in equilibrium before. -/
theorem C111_colour_step (nu : ℝ) (h1 : -1 < nu) (h2 : nu < 1 / 2) (l : SLevel) (hl : Spec.Sound l) (b u : Vec) (c : ℕ)
    (hu : mask l u = u) :
    let v := smoothColor (makeKE nu 1) l b c u
    (∀ n, l.free n → l.color n = c → ∀ i, mv (makeKE nu 1) l v n i = b n i) ∧ (∀ n, l.color n ≠ c → v n = u n) ∧
      Spec.potential (makeKE nu 1) l b v ≤ Spec.potential (makeKE nu 1) l b u ∧
      (Spec.potential (makeKE nu 1) l b v = Spec.potential (makeKE nu 1) l b u →
        ∀ n, l.free n → l.color n = c → ∀ i, mv (makeKE nu 1) l u n i = b n i) := by
  intro v
  have hK := makeKE_elastic h1 h2
  have hp := smoothColor_potential hK l hl b c u hu
  obtain ⟨q1, q2⟩ := dot_correction_nonneg hK l hl b c u
  refine ⟨fun n hn hc i => ?_, fun n hc => ?_, ?_, fun h n hn hc i => ?_⟩
  · show mv (makeKE nu 1) l (smoothColor (makeKE nu 1) l b c u) n i = b n i
    rw [smoothColor_eq l b c u hu, mv_add, Pi.add_apply, Pi.add_apply, mv_correction hK l hl b c u n hn hc]
    simp [resid, mask, hn]
  · show smoothColor (makeKE nu 1) l b c u n = u n
    rw [smoothColor_eq l b c u hu]
    ext i
    simp [correction, hc]
  · show Spec.potential _ _ _ (smoothColor (makeKE nu 1) l b c u) ≤ _
    rw [hp]; linarith
  · have h' : Spec.potential _ _ _ (smoothColor (makeKE nu 1) l b c u) = _ := h
    rw [hp] at h'
    have := q2 (by linarith) n hn hc
    have hi : resid (makeKE nu 1) l b u n i = 0 := by rw [this]; rfl
    simp [resid, mask, hn] at hi
    linarith

theorem foldl_smooth (hK : Elastic KE) (l : SLevel) (hl : Spec.Sound l) (b : Vec) (cs : List ℕ) :
    ∀ u, mask l u = u → mask l (cs.foldl (fun u c => smoothColor KE l b c u) u) = cs.foldl (fun u c => smoothColor KE l b c u) u ∧
      Spec.potential KE l b (cs.foldl (fun u c => smoothColor KE l b c u) u) ≤ Spec.potential KE l b u ∧
      (Spec.potential KE l b (cs.foldl (fun u c => smoothColor KE l b c u) u) = Spec.potential KE l b u →
        ∀ n, l.free n → l.color n ∈ cs → resid KE l b u n = 0) := by
  induction cs with
  | nil => intro u hu; exact ⟨hu, le_refl _, fun _ n _ h => by simp at h⟩
  | cons c cs ih =>
    intro u hu
    obtain ⟨i1, i2, i3⟩ := ih _ (smoothColor_mask (KE := KE) l b c u)
    have hp := smoothColor_potential hK l hl b c u hu
    obtain ⟨q1, q2⟩ := dot_correction_nonneg hK l hl b c u
    refine ⟨i1, by simp only [List.foldl_cons]; linarith, fun h n hn hc => ?_⟩
    simp only [List.foldl_cons] at h
    have z : dot l.nn (correction KE l b c u) (resid KE l b u) = 0 := by linarith
    have hzero : ∀ n, l.free n → l.color n = c → resid KE l b u n = 0 := q2 z
    have hsame : smoothColor KE l b c u = u := by
      rw [smoothColor_eq l b c u hu]
      ext m i
      simp only [Pi.add_apply, correction]
      split_ifs with k1 k2
      · rw [hzero m k1 k2, Matrix.mulVec_zero]; simp
      · simp
      · simp
    rcases List.mem_cons.mp hc with hc | hc
    · exact hzero n hn hc
    · have := i3 (by rw [hsame]; rw [hsame] at h; exact h) n hn hc
      rwa [hsame] at this

theorem smooth_zero (l : SLevel) (b u : Vec) : smooth KE l b 0 u = u := rfl

theorem smooth_succ (l : SLevel) (b : Vec) (k : ℕ) (u : Vec) :
    smooth KE l b (k + 1) u = smooth KE l b k ((List.range 8).foldl (fun u c => smoothColor KE l b c u) u) := by
  unfold smooth
  rw [Function.iterate_succ_apply]

/-- C111: any number of sweeps keeps fixed nodes at zero and never raises the potential energy; at least one sweep lowers it
strictly unless the displacement already solves the level's equations, and leaves a solution as it is. -/
theorem C111_sweeps (nu : ℝ) (h1 : -1 < nu) (h2 : nu < 1 / 2) (l : SLevel) (hl : Spec.Sound l) (b u : Vec) (sweeps : ℕ)
    (hu : mask l u = u) :
    let v := smooth (makeKE nu 1) l b sweeps u
    let Solves := ∀ n, l.free n → ∀ i, mv (makeKE nu 1) l u n i = b n i
    (∀ n, ¬ l.free n → ∀ i, v n i = 0) ∧
      Spec.potential (makeKE nu 1) l b v ≤ Spec.potential (makeKE nu 1) l b u ∧
      (1 ≤ sweeps → ¬ Solves → Spec.potential (makeKE nu 1) l b v < Spec.potential (makeKE nu 1) l b u) ∧ (Solves → v = u) := by
  intro v Solves
  have hK := makeKE_elastic h1 h2
  have base : ∀ k u, mask l u = u → mask l (smooth (makeKE nu 1) l b k u) = smooth (makeKE nu 1) l b k u ∧
      Spec.potential (makeKE nu 1) l b (smooth (makeKE nu 1) l b k u) ≤ Spec.potential (makeKE nu 1) l b u := by
    intro k
    induction k with
    | zero => intro u hu; exact ⟨hu, le_refl _⟩
    | succ k ih =>
      intro u hu
      obtain ⟨i1, i2, _⟩ := foldl_smooth hK l hl b (List.range 8) u hu
      rw [smooth_succ]
      obtain ⟨j1, j2⟩ := ih _ i1
      exact ⟨j1, le_trans j2 i2⟩
  obtain ⟨m1, m2⟩ := base sweeps u hu
  refine ⟨fun n hn i => mask_fixed m1 hn i, m2, fun hk hns => ?_, fun hs => ?_⟩
  · obtain ⟨k, rfl⟩ : ∃ k, sweeps = k + 1 := ⟨sweeps - 1, by omega⟩
    obtain ⟨i1, i2, i3⟩ := foldl_smooth hK l hl b (List.range 8) u hu
    have j2 := (base k _ i1).2
    show Spec.potential _ _ _ (smooth (makeKE nu 1) l b (k + 1) u) < _
    rw [smooth_succ]
    refine lt_of_le_of_lt j2 (lt_of_le_of_ne i2 fun he => hns fun n hn i => ?_)
    have := i3 he n hn (List.mem_range.mpr (hl.eight n))
    have hi : resid (makeKE nu 1) l b u n i = 0 := by rw [this]; rfl
    simp [resid, mask, hn] at hi
    linarith
  · have hres : ∀ n, resid (makeKE nu 1) l b u n = 0 := by
      intro n
      ext i
      simp only [resid, mask, Pi.sub_apply, Pi.zero_apply]
      split_ifs with hn
      · rw [hs n hn i, sub_self]
      · rfl
    have hstep : ∀ c, smoothColor (makeKE nu 1) l b c u = u := by
      intro c
      rw [smoothColor_eq l b c u hu]
      ext m i
      simp [correction, hres m]
    have hfold : ∀ cs : List ℕ, cs.foldl (fun u c => smoothColor (makeKE nu 1) l b c u) u = u := by
      intro cs
      induction cs with
      | nil => rfl
      | cons c cs ih => rw [List.foldl_cons, hstep c]; exact ih
    show smooth (makeKE nu 1) l b sweeps u = u
    clear m1 m2 v
    induction sweeps with
    | zero => rfl
    | succ k ih => rw [smooth_succ, hfold]; exact ih

/-- The arrays of every level of `build` meet the hypotheses, for positive moduli, one per cell. -/
theorem C111_levels_sound (L : ℕ) (g : Grid) (cells : List ℕ) (hc : ∀ e ∈ cells, e < g.numCells) (l : ℕ) (lev : Level)
    (hlev : (build L g cells)[l]? = some lev) (pred : FixedPred) (next : Option Level) (E : List ℝ)
    (hE : E.length = lev.cells.length) (hpos : ∀ x ∈ E, 0 < x) : Spec.Sound (toSLevel pred lev next E) := by
  obtain ⟨_, _, hnum, _, hsort, hnodes, hlen, hcorner⟩ := (C109_levels L g cells hc).2 l lev hlev
  have hels : ∀ el ∈ (toSLevel pred lev next E).els, ∃ k, ∃ hk : k < lev.cells.length, ∃ hk' : k < E.length,
      el = (fun a : Fin 8 => (lev.ncid.getD k []).getD a 0, E[k]) := by
    intro el hel
    simp only [toSLevel] at hel
    obtain ⟨k, hk, rfl⟩ := List.getElem_of_mem hel
    simp only [List.length_zipWith] at hk
    refine ⟨k, by omega, by omega, ?_⟩
    rw [List.getElem_zipWith, List.getD_eq_getElem _ _ (by omega)]
  have hcol : ∀ k (hk : k < lev.cells.length) (a : Fin 8), (toSLevel pred lev next E).color ((lev.ncid.getD k []).getD a 0) =
      colorOf lev.g (lev.nodes.getD ((lev.ncid.getD k []).getD a 0) 0) := by
    intro k hk a
    simp only [toSLevel]
    rw [if_pos (hcorner k hk a).1]
  have hnd : lev.nodes.Nodup := hsort.imp fun h => h.ne
  refine ⟨fun el hel => ?_, fun el hel a => ?_, fun el hel a b hab => ?_, fun n hn => ?_, fun n => ?_⟩
  · obtain ⟨k, _, hk', rfl⟩ := hels el hel
    exact hpos _ (List.getElem_mem hk')
  · obtain ⟨k, hk, _, rfl⟩ := hels el hel
    exact (hcorner k hk a).1
  · obtain ⟨k, hk, _, rfl⟩ := hels el hel
    simp only at hab
    rw [hcol k hk a, hcol k hk b, (hcorner k hk a).2, (hcorner k hk b).2] at hab
    have hlt := hnum _ (List.getElem_mem hk)
    have heq := (C109_colours lev.g _ _).2 _ hlt (corner_mem lev.g _ a) (corner_mem lev.g _ b) hab
    obtain ⟨_, g1, g2, g3⟩ := cellId_cellIjk lev.g _ hlt
    obtain ⟨a1, a2, a3⟩ := corner_le a
    obtain ⟨b1, b2, b3⟩ := corner_le b
    have := nodeId_inj lev.g (by simp only; omega) (by simp only; omega) (by simp only; omega) (by simp only; omega) heq
    simp only [Prod.mk.injEq, add_right_inj] at this
    exact corner_inj (Prod.ext this.1 (Prod.ext this.2.1 this.2.2))
  · simp only [toSLevel, Bool.and_eq_true, decide_eq_true_eq] at hn
    refine ⟨hn.1, ?_⟩
    obtain ⟨e, he, hne⟩ := (hnodes _).mp (List.getElem_mem hn.1)
    obtain ⟨k, hk, rfl⟩ := List.getElem_of_mem he
    rw [← mem_cornerNodes, cornerNodes_eq, List.mem_map] at hne
    obtain ⟨a, _, ha⟩ := hne
    obtain ⟨c1, c2⟩ := hcorner k hk a
    refine ⟨(fun a : Fin 8 => (lev.ncid.getD k []).getD a 0, E[k]'(by omega)), ?_, a, ?_⟩
    · simp only [toSLevel]
      have hk2 : k < (List.zipWith (fun (ids : List ℕ) (e : ℝ) => ((fun a : Fin 8 => ids.getD a 0), e)) lev.ncid E).length := by
        rw [List.length_zipWith]; omega
      have : (List.zipWith (fun (ids : List ℕ) (e : ℝ) => ((fun a : Fin 8 => ids.getD a 0), e)) lev.ncid E)[k] =
          (fun a : Fin 8 => (lev.ncid.getD k []).getD a 0, E[k]'(by omega)) := by
        rw [List.getElem_zipWith, List.getD_eq_getElem _ _ (by omega)]
      rw [← this]
      exact List.getElem_mem hk2
    · rw [ha, List.getD_eq_getElem _ _ c1] at c2
      exact (List.Nodup.getElem_inj_iff hnd).mp c2
  · simp only [toSLevel]
    split_ifs
    · exact (C109_colours lev.g _ 0).1
    · omega

example : ∃ lev, (build 2 ⟨3, 2, 2⟩ [0, 11])[1]? = some lev ∧
    Spec.Sound (toSLevel (fun t _ => t.2.2 == 0) lev none [1, 1 / 2]) := by
  refine ⟨_, rfl, C111_levels_sound 2 ⟨3, 2, 2⟩ [0, 11] (by decide) 1 _ rfl _ _ _ (by decide) (by simp)⟩

/-! ## The conjugate gradient loop -/

theorem smooth_mask (l : SLevel) (b : Vec) (k : ℕ) : ∀ u, mask l u = u → mask l (smooth KE l b k u) = smooth KE l b k u := by
  induction k with
  | zero => intro u hu; exact hu
  | succ k ih =>
    intro u hu
    rw [smooth_succ]
    apply ih
    have : ∀ cs : List ℕ, ∀ u, mask l u = u →
        mask l (cs.foldl (fun u c => smoothColor KE l b c u) u) = cs.foldl (fun u c => smoothColor KE l b c u) u := by
      intro cs
      induction cs with
      | nil => intro u hu; exact hu
      | cons c cs ihc => intro u _; exact ihc _ (smoothColor_mask l b c u)
    exact this _ u hu

theorem vcycle_mask (pre post : ℕ) (coarse : SLevel → Vec → Vec) (l : SLevel) (rest : List SLevel) (b : Vec) :
    mask l (vcycle KE pre post coarse (l :: rest) b) = vcycle KE pre post coarse (l :: rest) b := by
  cases rest with
  | nil => exact mask_mask _ _
  | cons lc rest =>
    simp only [vcycle]
    apply smooth_mask
    rw [mask_add, smooth_mask l b pre 0 (mask_zero l)]
    congr 1
    exact mask_mask _ _

theorem le_maxAbs (nn : ℕ) (r : Vec) {n : ℕ} (hn : n < nn) (c : Fin 3) : |r n c| ≤ maxAbs nn r := by
  unfold maxAbs
  have hm : |r n c| ∈ (List.range nn).flatMap fun n => (List.finRange 3).map fun c => |r n c| :=
    List.mem_flatMap.mpr ⟨n, List.mem_range.mpr hn, List.mem_map.mpr ⟨c, List.mem_finRange _, rfl⟩⟩
  revert hm
  generalize (List.range nn).flatMap (fun n => (List.finRange 3).map fun c => |r n c|) = xs
  intro hm
  induction xs with
  | nil => simp at hm
  | cons x xs ih =>
    rw [List.foldr_cons]
    rcases List.mem_cons.mp hm with h | h
    · rw [h]; exact le_max_left _ _
    · exact le_trans (ih h) (le_max_right _ _)

theorem maxAbs_le (nn : ℕ) (r : Vec) (B : ℝ) (hB : 0 ≤ B) (h : ∀ n < nn, ∀ c, |r n c| ≤ B) : maxAbs nn r ≤ B := by
  unfold maxAbs
  have hm : ∀ x ∈ (List.range nn).flatMap fun n => (List.finRange 3).map fun c => |r n c|, x ≤ B := by
    intro x hx
    obtain ⟨n, hn, hx⟩ := List.mem_flatMap.mp hx
    obtain ⟨c, _, rfl⟩ := List.mem_map.mp hx
    exact h n (List.mem_range.mp hn) c
  revert hm
  generalize (List.range nn).flatMap (fun n => (List.finRange 3).map fun c => |r n c|) = xs
  intro hm
  induction xs with
  | nil => exact hB
  | cons x xs ih =>
    rw [List.foldr_cons]
    exact max_le (hm x List.mem_cons_self) (ih fun y hy => hm y (List.mem_cons_of_mem _ hy))

theorem pcgLoop_inv (nn : ℕ) (A M : Vec → Vec) (tol : ℝ) (P : PcgState → Prop) (hstep : ∀ s, P s → P (pcgBody nn A M s)) :
    ∀ fuel s, P s → P (pcgLoop nn A M tol fuel s) ∧ s.k ≤ (pcgLoop nn A M tol fuel s).k ∧
      (pcgLoop nn A M tol fuel s).k ≤ s.k + fuel ∧
      ((pcgLoop nn A M tol fuel s).k < s.k + fuel → maxAbs nn (pcgLoop nn A M tol fuel s).r ≤ tol) := by
  intro fuel
  induction fuel with
  | zero => intro s hs; simp only [pcgLoop]; exact ⟨hs, le_refl _, le_refl _, fun h => absurd h (lt_irrefl _)⟩
  | succ f ih =>
    intro s hs
    simp only [pcgLoop]
    split_ifs with h
    · obtain ⟨i1, i2, i3, i4⟩ := ih _ (hstep s hs)
      have hk : (pcgBody nn A M s).k = s.k + 1 := rfl
      rw [hk] at i2 i3 i4
      exact ⟨i1, by omega, by omega, fun hh => i4 (by omega)⟩
    · exact ⟨hs, le_refl _, by omega, fun _ => not_lt.mp h⟩

theorem solveJ_inv (q : CmgParams) (coarse : SLevel → Vec → Vec) (l : SLevel) (rest : List SLevel) (b u0 : Vec) :
    let s := solveJ q coarse l rest b u0
    (mask l s.u = s.u ∧ mask l s.p = s.p ∧ s.r = mask l b - mv q.KE l s.u) ∧ s.k ≤ q.maxit ∧
      (s.k < q.maxit → maxAbs l.nn s.r ≤ q.tol * (maxAbs l.nn (mask l b - mv q.KE l (mask l u0)) + 1 / 10 ^ 30)) := by
  intro s
  have h := pcgLoop_inv l.nn (mv q.KE l) (vcycle q.KE q.pre q.post coarse (l :: rest))
    (q.tol * (maxAbs l.nn (mask l b - mv q.KE l (mask l u0)) + 1 / 10 ^ 30))
    (fun s => mask l s.u = s.u ∧ mask l s.p = s.p ∧ s.r = mask l b - mv q.KE l s.u) (by
      rintro t ⟨h1, h2, h3⟩
      refine ⟨?_, ?_, ?_⟩
      · simp only [pcgBody]
        rw [mask_add, mask_smul, h1, h2]
      · simp only [pcgBody]
        rw [mask_add, mask_smul, h2, vcycle_mask]
      · simp only [pcgBody]
        rw [mv_add, mv_smul, h3]
        abel) q.maxit
    ⟨mask l u0, mask l b - mv q.KE l (mask l u0), vcycle q.KE q.pre q.post coarse (l :: rest) (mask l b - mv q.KE l (mask l u0)),
      dot l.nn (mask l b - mv q.KE l (mask l u0)) (vcycle q.KE q.pre q.post coarse (l :: rest) (mask l b - mv q.KE l (mask l u0))), 0⟩
    ⟨mask_mask _ _, vcycle_mask _ _ _ _ _ _, rfl⟩
  obtain ⟨i1, _, i3, i4⟩ := h
  simp only [Nat.zero_add] at i3 i4
  exact ⟨i1, i3, i4⟩

/-- C112: whatever the levels, the coarse solve and the load, the displacement vanishes at fixed nodes; the residual the loop
carries is the true one; at most `cg_maxit` steps are made; and if fewer were needed, the equations hold at every free DOF up to
`cg_tol` times the largest load. A wrong preconditioner can cost steps, never correctness. -/
theorem C112_residual (q : CmgParams) (coarse : SLevel → Vec → Vec) (l : SLevel) (rest : List SLevel) (b : Vec) (htol : 0 ≤ q.tol) :
    let s := solveJ q coarse l rest b 0
    (∀ n, ¬ l.free n → ∀ c, s.u n c = 0) ∧ (∀ n, l.free n → ∀ c, s.r n c = b n c - mv q.KE l s.u n c) ∧ s.k ≤ q.maxit ∧
      (s.k < q.maxit → ∀ B, 0 ≤ B → (∀ n < l.nn, l.free n → ∀ c, |b n c| ≤ B) →
        ∀ n < l.nn, l.free n → ∀ c, |b n c - mv q.KE l s.u n c| ≤ q.tol * (B + 1 / 10 ^ 30)) := by
  intro s
  obtain ⟨⟨h1, _, h3⟩, h4, h5⟩ := solveJ_inv q coarse l rest b 0
  have hr : ∀ n, l.free n → ∀ c, s.r n c = b n c - mv q.KE l s.u n c := by
    intro n hn c
    show (solveJ q coarse l rest b 0).r n c = _
    rw [h3]
    simp [mask, hn, s]
  refine ⟨fun n hn c => mask_fixed h1 hn c, hr, h4, fun hk B hB hb n hn hf c => ?_⟩
  rw [← hr n hf c]
  have hM : maxAbs l.nn (mask l b - mv q.KE l (mask l 0)) ≤ B := by
    apply maxAbs_le _ _ _ hB
    intro m hm i
    rw [mask_zero, mv_zero, sub_zero]
    by_cases hf' : l.free m
    · simpa [mask, hf'] using hb m hm hf' i
    · simpa [mask, hf'] using hB
  calc |s.r n c| ≤ maxAbs l.nn s.r := le_maxAbs _ _ hn c
    _ ≤ q.tol * (maxAbs l.nn (mask l b - mv q.KE l (mask l 0)) + 1 / 10 ^ 30) := h5 hk
    _ ≤ q.tol * (B + 1 / 10 ^ 30) := by
      apply mul_le_mul_of_nonneg_left _ htol
      linarith

example : (0 : ℝ) ≤ ({ KE := makeKE (3 / 10) 1 } : CmgParams).tol := by norm_num

/-- C112, what does not hold: the solver does not say that it stopped at `cg_maxit`. With no step allowed every load on every
design is answered by zero, without an error. -/
theorem C112_unconverged_silent (q : CmgParams) (hq : q.maxit = 0) (pred : FixedPred) (Emin E0 p : ℝ) (bucket : ℕ)
    (coarse : SLevel → Vec → Vec) (levels : List Level) (rho : List ℝ) (rhs : Vec) :
    rawSolve q pred Emin E0 p bucket coarse levels rho rhs = 0 := by
  unfold rawSolve
  split
  · rfl
  · simp only [solveJ, hq, pcgLoop, mask_zero]

example : ({ KE := 0, maxit := 0 } : CmgParams).maxit = 0 := rfl

/-- C112, the supports: on the first level the nodes for which the predicate holds (called with the node's indices along the three
axes and the numbers of cells) are the fixed ones: they do not move, whatever design and load; at all other nodes of the band
the equations are solved (`C112_residual`). -/
theorem C112_supports (q : CmgParams) (pred : FixedPred) (Emin E0 p : ℝ) (bucket : ℕ) (coarse : SLevel → Vec → Vec)
    (L : ℕ) (g : Grid) (cells : List ℕ) (rho : List ℝ) (rhs : Vec) (htol : 0 ≤ q.tol) (i j k : ℕ) (hj : j ≤ g.ny) (hk : k ≤ g.nz)
    (lev : Level) (hlev : (build (L + 1) g cells).head? = some lev) (n : ℕ)
    (hn : lev.nodes[n]? = some (i * ((g.ny + 1) * (g.nz + 1)) + j * (g.nz + 1) + k)) :
    (pred (i, j, k) (g.nx, g.ny, g.nz) = true →
      ∀ c, rawSolve q pred Emin E0 p bucket coarse (build (L + 1) g cells) rho rhs n c = 0) ∧
    ∀ l, (solverLevels pred Emin E0 p bucket (build (L + 1) g cells) (rhosFrom (build (L + 1) g cells) rho)).head? = some l →
      (l.free n = true ↔ pred (i, j, k) (g.nx, g.ny, g.nz) = false) := by
  obtain ⟨tl, htl⟩ : ∃ tl, build (L + 1) g cells = lev :: tl := by
    cases hb : build (L + 1) g cells with
    | nil => rw [hb] at hlev; cases hlev
    | cons a tl => rw [hb] at hlev; cases hlev; exact ⟨tl, rfl⟩
  have hg : lev.g = g := by
    have : (build (L + 1) g cells).head? = some (mkLevel g (cells.insertionSort (· ≤ ·))) := by simp [build, buildFrom]
    rw [hlev] at this
    cases this
    rfl
  have hlt : n < lev.nodes.length := by
    by_contra hcon
    rw [List.getElem?_eq_none (by omega)] at hn
    cases hn
  have hd : lev.nodes.getD n 0 = i * ((g.ny + 1) * (g.nz + 1)) + j * (g.nz + 1) + k := by
    rw [List.getD_eq_getElem?_getD, hn]
    rfl
  have htri : nodeTriple g (i * ((g.ny + 1) * (g.nz + 1)) + j * (g.nz + 1) + k) = (i, j, k) := by
    have h1 : j * (g.nz + 1) + k < (g.ny + 1) * (g.nz + 1) := by nlinarith
    have h2 : k < g.nz + 1 := by omega
    have e1 : (i * ((g.ny + 1) * (g.nz + 1)) + j * (g.nz + 1) + k) / ((g.ny + 1) * (g.nz + 1)) = i := by
      rw [Nat.add_assoc, Nat.add_comm, Nat.add_mul_div_right _ _ (by positivity), Nat.div_eq_of_lt h1, Nat.zero_add]
    have e2 : (i * ((g.ny + 1) * (g.nz + 1)) + j * (g.nz + 1) + k) % ((g.ny + 1) * (g.nz + 1)) = j * (g.nz + 1) + k := by
      rw [Nat.add_assoc, Nat.add_comm, Nat.add_mul_mod_self_right, Nat.mod_eq_of_lt h1]
    simp only [nodeTriple]
    rw [e1, e2]
    refine Prod.ext rfl (Prod.ext ?_ ?_)
    · simp only
      rw [Nat.add_comm, Nat.add_mul_div_right _ _ (by omega), Nat.div_eq_of_lt h2, Nat.zero_add]
    · simp only
      rw [Nat.add_comm, Nat.add_mul_mod_self_right, Nat.mod_eq_of_lt h2]
  have hfree : ∀ l, (solverLevels pred Emin E0 p bucket (build (L + 1) g cells) (rhosFrom (build (L + 1) g cells) rho)).head? = some l →
      (l.free n = true ↔ pred (i, j, k) (g.nx, g.ny, g.nz) = false) := by
    intro l hl
    rw [htl] at hl
    generalize rhosFrom (lev :: tl) rho = rhos at hl
    have : ∃ nx E, l = (toSLevel pred lev nx E).pad bucket := by
      cases tl with
      | nil => simp only [solverLevels, List.head?_cons, Option.some.injEq] at hl; exact ⟨_, _, hl.symm⟩
      | cons c tl => simp only [solverLevels, List.head?_cons, Option.some.injEq] at hl; exact ⟨_, _, hl.symm⟩
    obtain ⟨nx, E, rfl⟩ := this
    simp only [SLevel.pad, toSLevel, freeNode, hd, hg, htri, decide_eq_true hlt, Bool.true_and, Bool.not_eq_true']
  refine ⟨fun hp c => ?_, hfree⟩
  unfold rawSolve
  cases hl : solverLevels pred Emin E0 p bucket (build (L + 1) g cells) (rhosFrom (build (L + 1) g cells) rho) with
  | nil => rfl
  | cons l rest =>
    refine (C112_residual q coarse l rest rhs htol).1 n (fun hf => ?_) c
    have := (hfree l (by rw [hl]; rfl)).mp hf
    rw [hp] at this
    cases this

/-- The hypotheses of `C112_supports` are met by a node of a band of two cells. -/
example : ((build 1 ⟨2, 1, 1⟩ [1, 0]).head?.bind fun lev => lev.nodes[9]?) = some (2 * ((1 + 1) * (1 + 1)) + 0 * (1 + 1) + 1) := by
  decide

/-! ## Padding -/

/-- A level whose nodes beyond the last are fixed and have no transfer. -/
structure Ends (l : SLevel) : Prop where
  inside : ∀ n, l.free n → n < l.nn
  out : ∀ n, l.nn ≤ n → ∀ q ∈ l.P n, q.2 = 0

theorem le_cap (n bucket : ℕ) (hb : 1 ≤ bucket) : n ≤ cap n bucket := by
  unfold cap
  have h1 := Nat.div_add_mod (max 1 n + bucket - 1) bucket
  have h2 := Nat.mod_lt (max 1 n + bucket - 1) (show 0 < bucket by omega)
  rw [Nat.mul_comm] at h1
  have := le_max_right 1 n
  omega

theorem mask_pad (l : SLevel) (k : ℕ) : mask (l.pad k) = mask l := rfl

theorem mv_pad (l : SLevel) (k : ℕ) : mv KE (l.pad k) = mv KE l := by
  ext u n c
  simp only [mv, SLevel.pad, List.map_append, List.sum_append, List.map_replicate, List.sum_replicate]
  simp

theorem diagBlock_pad (l : SLevel) (k : ℕ) : diagBlock KE (l.pad k) = diagBlock KE l := by
  ext n
  simp only [diagBlock, SLevel.pad, List.map_append, List.sum_append, List.map_replicate, List.sum_replicate]
  simp

theorem smooth_pad (l : SLevel) (k : ℕ) : smooth KE (l.pad k) = smooth KE l := by
  have h : ∀ b c u, smoothColor KE (l.pad k) b c u = smoothColor KE l b c u := by
    intro b c u
    unfold smoothColor resid dinv
    rw [mask_pad, mv_pad, diagBlock_pad]
    rfl
  ext b s u
  unfold smooth
  simp only [h]

theorem resid_pad (l : SLevel) (k : ℕ) : resid KE (l.pad k) = resid KE l := by
  ext b u
  unfold resid
  rw [mask_pad, mv_pad]

theorem sum_range_ends {N M : ℕ} (h : N ≤ M) (f : ℕ → ℝ) (hf : ∀ n, N ≤ n → f n = 0) :
    ∑ n ∈ Finset.range M, f n = ∑ n ∈ Finset.range N, f n := by
  symm
  apply Finset.sum_subset (fun n hn => Finset.mem_range.mpr (lt_of_lt_of_le (Finset.mem_range.mp hn) h))
  intro n _ hn
  exact hf n (by simpa using hn)

theorem restrictTo_pad (l lc : SLevel) (hl : Ends l) (k k' : ℕ) (hk : 1 ≤ k) (r : Vec) :
    restrictTo (l.pad k) (lc.pad k') r = restrictTo l lc r := by
  unfold restrictTo
  rw [mask_pad]
  congr 1
  ext m c
  refine sum_range_ends (le_cap l.nn k hk) _ fun n hn => ?_
  apply List.sum_eq_zero
  intro x hx
  obtain ⟨q, hq, rfl⟩ := List.mem_map.mp hx
  rw [hl.out n hn q hq]
  simp

theorem dot_pad (l : SLevel) (hl : Ends l) (k : ℕ) (hk : 1 ≤ k) (x y : Vec) (hx : mask l x = x) :
    dot (l.pad k).nn x y = dot l.nn x y := by
  unfold dot
  refine sum_range_ends (le_cap l.nn k hk) _ fun n hn => ?_
  refine Finset.sum_eq_zero fun c _ => ?_
  rw [mask_fixed hx (fun h => absurd (hl.inside n h) (by omega)) c, zero_mul]

theorem maxAbs_nonneg (nn : ℕ) (r : Vec) : 0 ≤ maxAbs nn r := by
  unfold maxAbs
  generalize (List.range nn).flatMap (fun n => (List.finRange 3).map fun c => |r n c|) = xs
  induction xs with
  | nil => exact le_refl _
  | cons x xs ih => rw [List.foldr_cons]; exact le_trans ih (le_max_right _ _)

theorem maxAbs_pad (l : SLevel) (hl : Ends l) (k : ℕ) (hk : 1 ≤ k) (r : Vec) (hr : mask l r = r) :
    maxAbs (l.pad k).nn r = maxAbs l.nn r := by
  apply le_antisymm
  · refine maxAbs_le _ _ _ (maxAbs_nonneg _ _) fun n _ c => ?_
    by_cases hn : n < l.nn
    · exact le_maxAbs _ _ hn c
    · rw [mask_fixed hr (fun h => hn (hl.inside n h)) c, abs_zero]
      exact maxAbs_nonneg _ _
  · exact maxAbs_le _ _ _ (maxAbs_nonneg _ _) fun n hn c => le_maxAbs _ _ (lt_of_lt_of_le hn (le_cap l.nn k hk)) c

theorem vcycle_pad (pre post : ℕ) (coarse : SLevel → Vec → Vec) (k : ℕ) (hk : 1 ≤ k)
    (hcoarse : ∀ l b, coarse (l.pad k) b = coarse l b) : ∀ (ls : List SLevel), (∀ l ∈ ls, Ends l) → ∀ b,
      vcycle KE pre post coarse (ls.map (·.pad k)) b = vcycle KE pre post coarse ls b := by
  intro ls
  induction ls with
  | nil => intro _ b; rfl
  | cons l rest ih =>
    intro h b
    cases rest with
    | nil => simp only [List.map_cons, List.map_nil, vcycle, mask_pad, hcoarse]
    | cons lc rest =>
      have ih' := ih fun x hx => h x (List.mem_cons_of_mem _ hx)
      simp only [List.map_cons] at ih' ⊢
      simp only [vcycle, smooth_pad, resid_pad]
      rw [restrictTo_pad l lc (h l List.mem_cons_self) k k hk, ih']
      rfl

theorem pcgLoop_pad (l : SLevel) (hl : Ends l) (k : ℕ) (hk : 1 ≤ k) (A M : Vec → Vec) (hA : ∀ x, mask l (A x) = A x)
    (hM : ∀ x, mask l (M x) = M x) (tol : ℝ) : ∀ fuel s, mask l s.r = s.r → mask l s.p = s.p →
      pcgLoop (l.pad k).nn A M tol fuel s = pcgLoop l.nn A M tol fuel s := by
  intro fuel
  induction fuel with
  | zero => intro s _ _; rfl
  | succ f ih =>
    intro s hr hp
    have hb : pcgBody (l.pad k).nn A M s = pcgBody l.nn A M s := by
      simp only [pcgBody]
      rw [dot_pad l hl k hk s.p _ hp]
      have : mask l (s.r - (s.rz / (dot l.nn s.p (A s.p) + 1 / 10 ^ 30)) • A s.p) =
          s.r - (s.rz / (dot l.nn s.p (A s.p) + 1 / 10 ^ 30)) • A s.p := by rw [mask_sub, mask_smul, hr, hA]
      simp only [dot_pad l hl k hk _ _ this]
    simp only [pcgLoop, maxAbs_pad l hl k hk s.r hr, hb]
    split_ifs with h
    · apply ih
      · simp only [pcgBody]; rw [mask_sub, mask_smul, hr, hA]
      · simp only [pcgBody]; rw [mask_add, mask_smul, hp, hM]
    · rfl

theorem solveJ_pad (q : CmgParams) (coarse : SLevel → Vec → Vec) (k : ℕ) (hk : 1 ≤ k) (hcoarse : ∀ l b, coarse (l.pad k) b = coarse l b)
    (l : SLevel) (rest : List SLevel) (hl : ∀ x ∈ l :: rest, Ends x) (b u0 : Vec) :
    solveJ q coarse (l.pad k) (rest.map (·.pad k)) b u0 = solveJ q coarse l rest b u0 := by
  have hV : vcycle q.KE q.pre q.post coarse (l.pad k :: rest.map (·.pad k)) = vcycle q.KE q.pre q.post coarse (l :: rest) := by
    funext b
    exact vcycle_pad q.pre q.post coarse k hk hcoarse (l :: rest) hl b
  have hE := hl l List.mem_cons_self
  have hr : mask l (mask l b - mv q.KE l (mask l u0)) = mask l b - mv q.KE l (mask l u0) := by
    rw [mask_sub, mask_mask, mask_mv]
  unfold solveJ
  simp only [hV, mask_pad, mv_pad]
  rw [maxAbs_pad l hE k hk _ hr, dot_pad l hE k hk _ _ hr]
  exact pcgLoop_pad l hE k hk _ _ (mask_mv l) (vcycle_mask _ _ _ l rest) _ _ _ hr (vcycle_mask _ _ _ l rest _)

/-- The solver arrays without padding. -/
noncomputable def plainLevels (pred : FixedPred) (Emin E0 p : ℝ) : List Level → List (List ℝ) → List SLevel
  | [], _ => []
  | [l], rhos => [toSLevel pred l none ((rhos.headD []).map (youngs Emin E0 p))]
  | l :: c :: rest, rhos => toSLevel pred l (some c) ((rhos.headD []).map (youngs Emin E0 p)) ::
      plainLevels pred Emin E0 p (c :: rest) rhos.tail

theorem solverLevels_eq (pred : FixedPred) (Emin E0 p : ℝ) (k : ℕ) : ∀ levels rhos,
    solverLevels pred Emin E0 p k levels rhos = (plainLevels pred Emin E0 p levels rhos).map (·.pad k) := by
  intro levels
  induction levels with
  | nil => intro _; rfl
  | cons l rest ih =>
    intro rhos
    cases rest with
    | nil => rfl
    | cons c rest => simp only [solverLevels, plainLevels, List.map_cons, ih]

theorem toSLevel_ends (pred : FixedPred) (lev : Level) (coarse : Option Level) (E : List ℝ) : Ends (toSLevel pred lev coarse E) := by
  refine ⟨fun n hn => ?_, fun n hn q hq => ?_⟩
  · simp only [toSLevel, Bool.and_eq_true, decide_eq_true_eq] at hn
    exact hn.1
  · have hn' : lev.nodes.length ≤ n := hn
    simp only [toSLevel] at hq
    cases coarse with
    | none => simp at hq
    | some c =>
      simp only [if_neg (not_lt.mpr hn')] at hq
      rw [(List.mem_replicate.mp hq).2]

theorem plainLevels_ends (pred : FixedPred) (Emin E0 p : ℝ) : ∀ levels rhos, ∀ l ∈ plainLevels pred Emin E0 p levels rhos, Ends l := by
  intro levels
  induction levels with
  | nil => intro _ l hl; simp [plainLevels] at hl
  | cons a rest ih =>
    intro rhos l hl
    cases rest with
    | nil =>
      simp only [plainLevels, List.mem_singleton] at hl
      rw [hl]; exact toSLevel_ends _ _ _ _
    | cons c rest =>
      simp only [plainLevels, List.mem_cons] at hl
      rcases hl with rfl | hl
      · exact toSLevel_ends _ _ _ _
      · exact ih _ l hl

/-- C113: the displacement does not depend on the bucket, so padding and the reuse of compiled code are invisible, as long as the
coarse solve does not see padding either. -/
theorem C113_bucket_invisible (q : CmgParams) (pred : FixedPred) (Emin E0 p : ℝ) (coarse : SLevel → Vec → Vec)
    (hcoarse : ∀ k l b, 1 ≤ k → coarse (l.pad k) b = coarse l b) (levels : List Level) (rho : List ℝ) (rhs : Vec) (k k' : ℕ)
    (hk : 1 ≤ k) (hk' : 1 ≤ k') :
    rawSolve q pred Emin E0 p k coarse levels rho rhs = rawSolve q pred Emin E0 p k' coarse levels rho rhs := by
  have key : ∀ k, 1 ≤ k → rawSolve q pred Emin E0 p k coarse levels rho rhs =
      match plainLevels pred Emin E0 p levels (rhosFrom levels rho) with
      | [] => 0
      | l :: rest => (solveJ q coarse l rest rhs 0).u := by
    intro k hk
    have he := plainLevels_ends pred Emin E0 p levels (rhosFrom levels rho)
    unfold rawSolve
    rw [solverLevels_eq]
    generalize plainLevels pred Emin E0 p levels (rhosFrom levels rho) = ls at he
    cases ls with
    | nil => rfl
    | cons l rest =>
      simp only [List.map_cons]
      rw [solveJ_pad q coarse k hk (fun l b => hcoarse k l b hk) l rest he]
  rw [key k hk, key k' hk']

/-- A coarse solve that does not see padding: any number of sweeps. -/
example (s : ℕ) : ∀ k l b, 1 ≤ k → (fun (l : SLevel) b => smooth KE l b s 0) (l.pad k) b = (fun l b => smooth KE l b s 0) l b :=
  fun k l b _ => by simp only [smooth_pad]
end Verif.Props
