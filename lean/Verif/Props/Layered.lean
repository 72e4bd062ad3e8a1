import Verif.Model.Layered
import Verif.Props.Plate
import Mathlib.MeasureTheory.Integral.Prod
import Mathlib.Algebra.Polynomial.Eval.Degree

/-!
# C94: layered solid elements
-/

namespace Verif.Props

open Verif.Model MeasureTheory

/-! ### The quadrature rule -/

/-- What is asked of the rules of `leggauss`: points in `[-1, 1]`, weights not negative, exact for monomials up to degree `m`. -/
structure GaussRule (m : ℕ) (r : List (ℝ × ℝ)) : Prop where
  points : ∀ p ∈ r, -1 ≤ p.1 ∧ p.1 ≤ 1
  weights : ∀ p ∈ r, 0 ≤ p.2
  exact : ∀ i ≤ m, (r.map fun p => p.2 * p.1 ^ i).sum = ∫ x in (-1 : ℝ)..1, x ^ i

theorem list_sum_flatMap {A B : Type*} (l : List A) (g : A → List B) (f : B → ℝ) :
    ((l.flatMap g).map f).sum = (l.map fun a => ((g a).map f).sum).sum := by
  induction l with
  | nil => simp
  | cons a l ih => simp [List.flatMap_cons, ih]

theorem list_mul_sum {A : Type*} (l : List A) (f : A → ℝ) (c : ℝ) : c * (l.map f).sum = (l.map fun a => c * f a).sum := by
  induction l with
  | nil => simp
  | cons a l ih => simp [mul_add, ih]

theorem list_sum_sub {A : Type*} (l : List A) (f g : A → ℝ) : (l.map fun a => f a - g a).sum = (l.map f).sum - (l.map g).sum := by
  induction l with
  | nil => simp
  | cons a l ih =>
    simp only [List.map_cons, List.sum_cons, ih]
    ring

theorem list_sum_finset {A B : Type*} (l : List A) (s : Finset B) (f : A → B → ℝ) :
    (l.map fun a => ∑ b ∈ s, f a b).sum = ∑ b ∈ s, (l.map fun a => f a b).sum := by
  induction l with
  | nil => simp
  | cons a l ih => simp [ih, Finset.sum_add_distrib]

theorem exact_polynomial {m : ℕ} {r : List (ℝ × ℝ)} (h : GaussRule m r) (p : Polynomial ℝ) (hp : p.natDegree ≤ m) :
    (r.map fun q => q.2 * p.eval q.1).sum = ∫ x in (-1 : ℝ)..1, p.eval x := by
  have e : ∀ x, p.eval x = ∑ i ∈ Finset.range (m + 1), p.coeff i * x ^ i := fun x =>
    Polynomial.eval_eq_sum_range' (Nat.lt_succ_of_le hp) x
  simp only [e]
  rw [intervalIntegral.integral_finsetSum]
  · simp only [Finset.mul_sum]
    rw [list_sum_finset]
    apply Finset.sum_congr rfl
    intro i hi
    rw [intervalIntegral.integral_const_mul, ← h.exact i (by have := Finset.mem_range.mp hi; omega), list_mul_sum]
    congr 1
    apply List.map_congr_left
    intro q _
    ring
  · intro i _
    exact (continuous_const.mul (continuous_pow i)).intervalIntegrable _ _

/-- The rule moved to `[a, b]`. -/
theorem exact_on_interval {m : ℕ} {r : List (ℝ × ℝ)} (h : GaussRule m r) (i : ℕ) (hi : i ≤ m) (a b : ℝ) :
    ((gaussUnit r).map fun q => (b - a) * q.2 * (a + (b - a) * q.1) ^ i).sum = ∫ z in a..b, z ^ i := by
  have hp := exact_polynomial h ((Polynomial.C ((a + b) / 2) + Polynomial.C ((b - a) / 2) * Polynomial.X) ^ i) (by
    refine (Polynomial.natDegree_pow_le).trans ?_
    have : (Polynomial.C ((a + b) / 2) + Polynomial.C ((b - a) / 2) * Polynomial.X : Polynomial ℝ).natDegree ≤ 1 := by
      compute_degree
    calc _ ≤ i * 1 := Nat.mul_le_mul_left _ this
      _ ≤ m := by omega)
  simp only [Polynomial.eval_pow, Polynomial.eval_add, Polynomial.eval_mul, Polynomial.eval_C, Polynomial.eval_X] at hp
  have hs : (b - a) / 2 * ∫ x in (-1 : ℝ)..1, ((a + b) / 2 + (b - a) / 2 * x) ^ i = ∫ z in a..b, z ^ i := by
    rw [intervalIntegral.mul_integral_comp_add_mul (f := fun z => z ^ i)]
    congr 1 <;> ring
  rw [← hs, ← hp, list_mul_sum, gaussUnit, List.map_map]
  congr 1
  apply List.map_congr_left
  intro q _
  simp only [Function.comp]
  have : a + (b - a) * (1 / 2 * (q.1 + 1)) = (a + b) / 2 + (b - a) / 2 * q.1 := by ring
  rw [this]
  ring

/-- Position of the lower face of ply `k`, the thickness being one. -/
noncomputable def faceAt (ts : List ℝ) (k : ℕ) : ℝ := (ts.take k).sum / ts.sum

theorem runningSum_getD (s : ℝ) (ts : List ℝ) (k : ℕ) (hk : k < ts.length) :
    (runningSum s ts).getD k 0 = s + (ts.take (k + 1)).sum := by
  induction ts generalizing s k with
  | nil => simp at hk
  | cons t ts ih =>
    cases k with
    | zero => simp [runningSum]
    | succ k =>
      rw [runningSum, List.getD_cons_succ, ih _ _ (by simpa using hk)]
      simp [add_assoc]

theorem zetaFaces_getD (ts : List ℝ) (k : ℕ) (hk : k ≤ ts.length) : (zetaFaces ts).getD k 0 = faceAt ts k := by
  cases k with
  | zero => simp [zetaFaces, faceAt]
  | succ k =>
    rw [zetaFaces, List.getD_cons_succ, faceAt]
    have h1 := runningSum_getD 0 ts k hk
    rw [zero_add] at h1
    rw [← h1]
    have hl : k < (runningSum 0 ts).length := by rw [runningSum_length]; exact hk
    rw [List.getD_eq_getElem _ _ (by simpa using hl), List.getElem_map, List.getD_eq_getElem _ _ hl]

theorem faceAt_succ (ts : List ℝ) (k : ℕ) (hk : k < ts.length) : faceAt ts (k + 1) - faceAt ts k = ts.getD k 0 / ts.sum := by
  unfold faceAt
  rw [← sub_div, List.take_add_one, List.sum_append]
  simp [List.getElem?_eq_getElem hk]

theorem faceAt_last (ts : List ℝ) (h : ts.sum ≠ 0) : faceAt ts ts.length = 1 := by
  unfold faceAt
  rw [List.take_length, div_self h]

/-- Sums over the points, ply by ply. -/
theorem quadrature_sum (ts : List ℝ) (r r' : List (ℝ × ℝ)) (f : LayeredPoint → ℝ) :
    ((layeredQuadrature ts r r').map f).sum = ∑ k ∈ Finset.range ts.length, ((gaussUnit r').map fun gz => ((gaussUnit r).map fun gx =>
      ((gaussUnit r).map fun gy => f ⟨gx.1, gy.1, faceAt ts k + (faceAt ts (k + 1) - faceAt ts k) * gz.1,
        gx.2 * gy.2 * ((faceAt ts (k + 1) - faceAt ts k) * gz.2), k⟩).sum).sum).sum := by
  unfold layeredQuadrature
  rw [list_sum_flatMap, sum_map_range]
  apply Finset.sum_congr rfl
  intro k hk
  have hk' : k < ts.length := by simpa using hk
  rw [list_sum_flatMap]
  congr 1
  apply List.map_congr_left
  intro gz _
  rw [list_sum_flatMap]
  congr 1
  apply List.map_congr_left
  intro gx _
  rw [List.map_map]
  congr 1
  apply List.map_congr_left
  intro gy _
  simp only [Function.comp]
  rw [zetaFaces_getD _ _ hk'.le, zetaFaces_getD _ _ hk']

/-- The rule with two points. -/
noncomputable def gaussTwo : List (ℝ × ℝ) := [(-(1 / Real.sqrt 3), 1), (1 / Real.sqrt 3, 1)]

theorem gaussTwo_rule : GaussRule 3 gaussTwo := by
  have h3 : (Real.sqrt 3) ^ 2 = 3 := Real.sq_sqrt (by norm_num)
  have hp : 0 < Real.sqrt 3 := Real.sqrt_pos.mpr (by norm_num)
  have h1 : 1 ≤ Real.sqrt 3 := by nlinarith
  have hle : 1 / Real.sqrt 3 ≤ 1 := by rw [div_le_one hp]; exact h1
  have hge : 0 < 1 / Real.sqrt 3 := by positivity
  refine ⟨?_, ?_, ?_⟩
  · intro p hmem
    simp only [gaussTwo, List.mem_cons, List.not_mem_nil, or_false] at hmem
    rcases hmem with rfl | rfl <;> constructor <;> dsimp only <;> linarith
  · intro p hmem
    simp only [gaussTwo, List.mem_cons, List.not_mem_nil, or_false] at hmem
    rcases hmem with rfl | rfl <;> norm_num
  · intro i hi
    have hsq : (1 / Real.sqrt 3) ^ 2 = 1 / 3 := by rw [div_pow, h3]; norm_num
    obtain ⟨s, hs⟩ : ∃ s, s = 1 / Real.sqrt 3 := ⟨_, rfl⟩
    rw [← hs] at hsq
    simp only [gaussTwo, ← hs, List.map_cons, List.map_nil, List.sum_cons, List.sum_nil, integral_pow]
    interval_cases i <;> norm_num
    all_goals nlinarith

theorem weights_unit {m : ℕ} {r : List (ℝ × ℝ)} (h : GaussRule m r) : ((gaussUnit r).map Prod.snd).sum = 1 := by
  have := exact_on_interval h 0 (Nat.zero_le _) 0 1
  simpa [Function.comp_def] using this

theorem gaussUnit_mem {m : ℕ} {r : List (ℝ × ℝ)} (h : GaussRule m r) (p : ℝ × ℝ) (hp : p ∈ gaussUnit r) :
    0 ≤ p.1 ∧ p.1 ≤ 1 ∧ 0 ≤ p.2 := by
  rw [gaussUnit, List.mem_map] at hp
  obtain ⟨q, hq, rfl⟩ := hp
  have := h.points q hq
  have := h.weights q hq
  refine ⟨?_, ?_, ?_⟩ <;> dsimp only <;> linarith

/-- **C94.** The reference rule: `n_plies · n_thickness · n_inplane²` points, each inside the unit cube and inside the slab of its
own ply, with a weight that is not negative. The weights of a ply add to its share of the thickness, hence all of them to one. -/
theorem C94_quadrature (ts : List ℝ) (hpos : ∀ t ∈ ts, 0 ≤ t) (hsum : 0 < ts.sum) {m m' : ℕ} {r r' : List (ℝ × ℝ)}
    (hr : GaussRule m r) (hr' : GaussRule m' r') :
    (layeredQuadrature ts r r').length = ts.length * (r'.length * (r.length * r.length)) ∧
    (∀ p ∈ layeredQuadrature ts r r', p.ply < ts.length ∧ 0 ≤ p.x ∧ p.x ≤ 1 ∧ 0 ≤ p.y ∧ p.y ≤ 1 ∧
      (ts.take p.ply).sum / ts.sum ≤ p.z ∧ p.z ≤ (ts.take (p.ply + 1)).sum / ts.sum ∧ 0 ≤ p.z ∧ p.z ≤ 1 ∧ 0 ≤ p.w) ∧
    (∀ k < ts.length, (((layeredQuadrature ts r r').filter fun p => p.ply = k).map LayeredPoint.w).sum = ts.getD k 0 / ts.sum) ∧
    ((layeredQuadrature ts r r').map LayeredPoint.w).sum = 1 := by
  have hfin : ∀ (l : List LayeredPoint) (k : ℕ), ((l.filter fun p => p.ply = k).map LayeredPoint.w).sum =
      (l.map fun p => if p.ply = k then p.w else 0).sum := by
    intro l k
    induction l with
    | nil => simp
    | cons a l ih =>
      rw [List.filter_cons]
      by_cases h : a.ply = k <;> simp [h, ← ih]
  have hw : ∀ k, ((gaussUnit r').map fun gz => ((gaussUnit r).map fun gx => ((gaussUnit r).map fun gy =>
      gx.2 * gy.2 * ((faceAt ts (k + 1) - faceAt ts k) * gz.2)).sum).sum).sum = faceAt ts (k + 1) - faceAt ts k := by
    intro k
    have e1 : ∀ (gz gx : ℝ × ℝ), ((gaussUnit r).map fun gy => gx.2 * gy.2 * ((faceAt ts (k + 1) - faceAt ts k) * gz.2)).sum =
        gx.2 * ((faceAt ts (k + 1) - faceAt ts k) * gz.2) := by
      intro gz gx
      have := weights_unit hr
      calc _ = ((gaussUnit r).map fun gy => (gx.2 * ((faceAt ts (k + 1) - faceAt ts k) * gz.2)) * gy.2).sum := by
            congr 1; apply List.map_congr_left; intro gy _; ring
        _ = _ := by rw [← list_mul_sum]; erw [this]; ring
    have e2 : ∀ (gz : ℝ × ℝ), ((gaussUnit r).map fun gx => gx.2 * ((faceAt ts (k + 1) - faceAt ts k) * gz.2)).sum =
        (faceAt ts (k + 1) - faceAt ts k) * gz.2 := by
      intro gz
      have := weights_unit hr
      calc _ = ((gaussUnit r).map fun gx => ((faceAt ts (k + 1) - faceAt ts k) * gz.2) * gx.2).sum := by
            congr 1; apply List.map_congr_left; intro gy _; ring
        _ = _ := by rw [← list_mul_sum]; erw [this]; ring
    simp only [e1, e2]
    rw [← list_mul_sum]
    erw [weights_unit hr']
    ring
  refine ⟨?_, ?_, ?_, ?_⟩
  · unfold layeredQuadrature gaussUnit
    simp [List.length_flatMap, Function.comp_def]
  · intro p hp
    unfold layeredQuadrature at hp
    simp only [List.mem_flatMap, List.mem_map, List.mem_range] at hp
    obtain ⟨k, hk, gz, hgz, gx, hgx, gy, hgy, rfl⟩ := hp
    have h1 := gaussUnit_mem hr gx hgx
    have h2 := gaussUnit_mem hr gy hgy
    have h3 := gaussUnit_mem hr' gz hgz
    dsimp only
    rw [zetaFaces_getD _ _ hk.le, zetaFaces_getD _ _ hk]
    have hd : 0 ≤ faceAt ts (k + 1) - faceAt ts k := by
      rw [faceAt_succ _ _ hk]
      apply div_nonneg _ hsum.le
      rw [List.getD_eq_getElem _ _ hk]
      exact hpos _ (List.getElem_mem _)
    have hlow : 0 ≤ faceAt ts k := div_nonneg (List.sum_nonneg fun t ht => hpos t (List.mem_of_mem_take ht)) hsum.le
    have hhigh : faceAt ts (k + 1) ≤ 1 := by
      unfold faceAt
      rw [div_le_one hsum]
      conv_rhs => rw [← List.take_append_drop (k + 1) ts, List.sum_append]
      have : 0 ≤ (ts.drop (k + 1)).sum := List.sum_nonneg fun t ht => hpos t (List.mem_of_mem_drop ht)
      linarith
    have hz1 : faceAt ts k ≤ faceAt ts k + (faceAt ts (k + 1) - faceAt ts k) * gz.1 := by nlinarith
    have hz2 : faceAt ts k + (faceAt ts (k + 1) - faceAt ts k) * gz.1 ≤ faceAt ts (k + 1) := by nlinarith
    exact ⟨hk, h1.1, h1.2.1, h2.1, h2.2.1, hz1, hz2, by linarith, by linarith,
      mul_nonneg (mul_nonneg h1.2.2 h2.2.2) (mul_nonneg hd h3.2.2)⟩
  · intro k hk
    rw [hfin, quadrature_sum, Finset.sum_eq_single k]
    · simp only [if_true]
      rw [hw, faceAt_succ _ _ hk]
    · intro j _ hj
      simp [hj]
    · intro h
      exact absurd (Finset.mem_range.mpr hk) h
  · rw [quadrature_sum]
    simp only [hw]
    rw [Finset.sum_range_sub, faceAt_last _ hsum.ne']
    simp [faceAt]

/-- `g` is a polynomial of degree at most `m`. -/
def PolyIn (m : ℕ) (g : ℝ → ℝ) : Prop := ∃ p : Polynomial ℝ, p.natDegree ≤ m ∧ ∀ t, g t = p.eval t

theorem polyIn_mono {m n : ℕ} (h : m ≤ n) {g : ℝ → ℝ} (hg : PolyIn m g) : PolyIn n g := by
  obtain ⟨p, hp, e⟩ := hg
  exact ⟨p, hp.trans h, e⟩

theorem polyIn_const (c : ℝ) : PolyIn 0 fun _ => c := ⟨Polynomial.C c, by simp, by simp⟩

theorem polyIn_mul {m n : ℕ} {f g : ℝ → ℝ} (hf : PolyIn m f) (hg : PolyIn n g) : PolyIn (m + n) fun t => f t * g t := by
  obtain ⟨p, hp, ep⟩ := hf
  obtain ⟨q, hq, eq⟩ := hg
  exact ⟨p * q, Polynomial.natDegree_mul_le.trans (by omega), fun t => by simp [ep, eq]⟩

theorem polyIn_add {m : ℕ} {f g : ℝ → ℝ} (hf : PolyIn m f) (hg : PolyIn m g) : PolyIn m fun t => f t + g t := by
  obtain ⟨p, hp, ep⟩ := hf
  obtain ⟨q, hq, eq⟩ := hg
  exact ⟨p + q, (Polynomial.natDegree_add_le p q).trans (by omega), fun t => by simp [ep, eq]⟩

theorem polyIn_const_mul {m : ℕ} {f : ℝ → ℝ} (c : ℝ) (hf : PolyIn m f) : PolyIn m fun t => c * f t := by
  have := polyIn_mul (polyIn_const c) hf
  rwa [zero_add] at this

theorem polyIn_sum {A : Type*} {m : ℕ} (s : Finset A) (f : A → ℝ → ℝ) (h : ∀ a ∈ s, PolyIn m (f a)) :
    PolyIn m fun t => ∑ a ∈ s, f a t := by
  classical
  induction s using Finset.induction_on with
  | empty => simpa using polyIn_mono (Nat.zero_le m) (polyIn_const 0)
  | insert a s ha ih =>
    have := polyIn_add (h a (Finset.mem_insert_self _ _)) (ih fun b hb => h b (Finset.mem_insert_of_mem hb))
    simpa [Finset.sum_insert ha] using this

theorem polyIn_list_sum {A : Type*} {m : ℕ} (l : List A) (f : A → ℝ → ℝ) (h : ∀ a ∈ l, PolyIn m (f a)) :
    PolyIn m fun t => (l.map fun a => f a t).sum := by
  induction l with
  | nil => simpa using polyIn_mono (Nat.zero_le m) (polyIn_const 0)
  | cons a l ih =>
    have := polyIn_add (h a (by simp)) (ih fun b hb => h b (by simp [hb]))
    simpa using this

theorem exact_polyIn {m : ℕ} {r : List (ℝ × ℝ)} (h : GaussRule m r) (f : ℝ → ℝ) (hf : PolyIn m f) (a b : ℝ) :
    ((gaussUnit r).map fun q => (b - a) * q.2 * f (a + (b - a) * q.1)).sum = ∫ z in a..b, f z := by
  obtain ⟨p, hp, e⟩ := hf
  have e' : ∀ x, f x = ∑ i ∈ Finset.range (m + 1), p.coeff i * x ^ i := fun x =>
    (e x).trans (Polynomial.eval_eq_sum_range' (Nat.lt_succ_of_le hp) x)
  simp only [e']
  rw [intervalIntegral.integral_finsetSum]
  · simp only [Finset.mul_sum]
    rw [list_sum_finset]
    apply Finset.sum_congr rfl
    intro i hi
    rw [intervalIntegral.integral_const_mul, ← exact_on_interval h i (by have := Finset.mem_range.mp hi; omega), list_mul_sum]
    congr 1
    apply List.map_congr_left
    intro q _
    ring
  · intro i _
    exact (continuous_const.mul (continuous_pow i)).intervalIntegrable _ _

/-- The integral of `f` over the slab that ply `k` takes in the unit cube. -/
noncomputable def slabIntegral (ts : List ℝ) (k : ℕ) (f : ℝ → ℝ → ℝ → ℝ) : ℝ :=
  ∫ z in ((ts.take k).sum / ts.sum)..((ts.take (k + 1)).sum / ts.sum), ∫ x in (0 : ℝ)..1, ∫ y in (0 : ℝ)..1, f x y z

/-- **C94.** The rule is exact, ply by ply, for integrands that change from ply to ply and are polynomial in each direction, of the
degree the one-dimensional rules take. -/
theorem C94_quadrature_exact (ts : List ℝ) {m m' : ℕ} {r r' : List (ℝ × ℝ)} (hr : GaussRule m r) (hr' : GaussRule m' r')
    (f : ℕ → ℝ → ℝ → ℝ → ℝ) (hx : ∀ k < ts.length, ∀ y z, PolyIn m fun x => f k x y z) (hy : ∀ k < ts.length, ∀ x z, PolyIn m fun y => f k x y z)
    (hz : ∀ k < ts.length, ∀ x y, PolyIn m' fun z => f k x y z) :
    ((layeredQuadrature ts r r').map fun p => p.w * f p.ply p.x p.y p.z).sum =
      ∑ k ∈ Finset.range ts.length, slabIntegral ts k (f k) := by
  rw [quadrature_sum]
  apply Finset.sum_congr rfl
  intro k hk
  have hk' : k < ts.length := by simpa using hk
  have hY : ∀ x z, (∫ y in (0 : ℝ)..1, f k x y z) = ((gaussUnit r).map fun q => q.2 * f k x q.1 z).sum := by
    intro x z
    have := exact_polyIn hr _ (hy k hk' x z) 0 1
    simpa using this.symm
  have hX : ∀ z, (∫ x in (0 : ℝ)..1, ∫ y in (0 : ℝ)..1, f k x y z) =
      ((gaussUnit r).map fun gx => gx.2 * ((gaussUnit r).map fun q => q.2 * f k gx.1 q.1 z).sum).sum := by
    intro z
    simp only [hY]
    have := exact_polyIn hr (fun x => ((gaussUnit r).map fun q => q.2 * f k x q.1 z).sum)
      (polyIn_list_sum _ (fun (q : ℝ × ℝ) x => q.2 * f k x q.1 z) fun q _ => polyIn_const_mul _ (hx k hk' _ _)) 0 1
    simpa using this.symm
  unfold slabIntegral
  simp only [hX]
  have hP : PolyIn m' fun z => ((gaussUnit r).map fun gx => gx.2 * ((gaussUnit r).map fun q => q.2 * f k gx.1 q.1 z).sum).sum :=
    polyIn_list_sum _ (fun (gx : ℝ × ℝ) z => gx.2 * ((gaussUnit r).map fun q => q.2 * f k gx.1 q.1 z).sum) fun gx _ =>
      polyIn_const_mul _ (polyIn_list_sum _ (fun (q : ℝ × ℝ) z => q.2 * f k gx.1 q.1 z) fun q _ => polyIn_const_mul _ (hz k hk' _ _))
  rw [← exact_polyIn hr' _ hP]
  congr 1
  apply List.map_congr_left
  intro gz _
  rw [list_mul_sum]
  congr 1
  apply List.map_congr_left
  intro gx _
  rw [list_mul_sum, list_mul_sum]
  congr 1
  apply List.map_congr_left
  intro gy _
  simp only [faceAt]
  ring

/-! ### Kinematics -/

/-- The corners of the unit cube in the order of the element's nodes. -/
def hexCorner : Fin 8 → Fin 3 → ℝ :=
  ![![0, 0, 0], ![1, 0, 0], ![1, 1, 0], ![0, 1, 0], ![0, 0, 1], ![1, 0, 1], ![1, 1, 1], ![0, 1, 1]]

/-- The trilinear function that is one at corner `a` and zero at the others. -/
noncomputable def hexShape (a : Fin 8) (p : Fin 3 → ℝ) : ℝ := ∏ I, (hexCorner a I * p I + (1 - hexCorner a I) * (1 - p I))

theorem hexVals_eq (x y z : ℝ) (a : Fin 8) : hexVals x y z a = hexShape a ![x, y, z] := by
  fin_cases a <;> simp [hexVals, hexShape, hexCorner, shapeValuesAt, EleType.reOrder, basixValues, Fin.prod_univ_three]

theorem hexGrad_eq (x y z : ℝ) (a : Fin 8) : hexGrad x y z a =
    ![(2 * hexCorner a 0 - 1) * (hexCorner a 1 * y + (1 - hexCorner a 1) * (1 - y)) * (hexCorner a 2 * z + (1 - hexCorner a 2) * (1 - z)),
      (hexCorner a 0 * x + (1 - hexCorner a 0) * (1 - x)) * (2 * hexCorner a 1 - 1) * (hexCorner a 2 * z + (1 - hexCorner a 2) * (1 - z)),
      (hexCorner a 0 * x + (1 - hexCorner a 0) * (1 - x)) * (hexCorner a 1 * y + (1 - hexCorner a 1) * (1 - y)) * (2 * hexCorner a 2 - 1)] := by
  funext I
  fin_cases I <;> fin_cases a <;>
    simp [hexGrad, hexCorner, shapeGradAt, shapeValuesAt, EleType.reOrder, basixValues] <;>
    first | ring1 | (left; ring1)

/-- **C94.** The tabulated values are the trilinear functions of the cube, one at their own corner and zero at the others, and the
tabulated gradients are their partial derivatives. -/
theorem C94_shape_functions (x y z : ℝ) (a : Fin 8) :
    hexVals x y z a = hexShape a ![x, y, z] ∧
    (∀ b, hexShape a (hexCorner b) = if a = b then 1 else 0) ∧
    HasDerivAt (fun t => hexShape a ![t, y, z]) (hexGrad x y z a 0) x ∧
    HasDerivAt (fun t => hexShape a ![x, t, z]) (hexGrad x y z a 1) y ∧
    HasDerivAt (fun t => hexShape a ![x, y, t]) (hexGrad x y z a 2) z := by
  refine ⟨hexVals_eq x y z a, ?_, ?_, ?_, ?_⟩
  · intro b
    fin_cases a <;> fin_cases b <;> simp [hexShape, hexCorner, Fin.prod_univ_three]
  all_goals
    rw [hexGrad_eq]
    simp only [hexShape, Fin.prod_univ_three, Matrix.cons_val_zero, Matrix.cons_val_one, Matrix.cons_val]
    have lin : ∀ (c t : ℝ), HasDerivAt (fun t => c * t + (1 - c) * (1 - t)) (2 * c - 1) t := by
      intro c t
      refine (((hasDerivAt_id t).const_mul c).add (((hasDerivAt_id t).const_sub 1).const_mul (1 - c))).congr_deriv ?_
      ring
  · exact ((lin _ x).mul_const _).mul_const _
  · exact ((lin _ y).const_mul _).mul_const _
  · exact (lin _ z).const_mul _

theorem hexGrad_sum (x y z : ℝ) (I : Fin 3) : ∑ a, hexGrad x y z a I = 0 := by
  simp only [hexGrad_eq, Fin.sum_univ_eight, hexCorner]
  fin_cases I <;> simp <;> ring

theorem hexGrad_corner (x y z : ℝ) (i I : Fin 3) : ∑ a, hexCorner a i * hexGrad x y z a I = if i = I then 1 else 0 := by
  simp only [hexGrad_eq, Fin.sum_univ_eight, hexCorner]
  fin_cases i <;> fin_cases I <;> simp <;> ring

theorem physGrad_sum {nodes dN : HexNodes} (h : ∀ I, ∑ a, dN a I = 0) (i : Fin 3) : ∑ a, hexPhysGrad nodes dN a i = 0 := by
  unfold hexPhysGrad
  rw [Finset.sum_comm]
  apply Finset.sum_eq_zero
  intro I _
  rw [← Finset.sum_mul, h, zero_mul]

theorem physGrad_nodes {nodes dN : HexNodes} (hdet : (hexJac nodes dN).det ≠ 0) (i j : Fin 3) :
    ∑ a, nodes a i * hexPhysGrad nodes dN a j = if i = j then 1 else 0 := by
  have hinv : hexJac nodes dN * (hexJac nodes dN)⁻¹ = 1 := Matrix.mul_nonsing_inv _ (isUnit_iff_ne_zero.mpr hdet)
  have h := congrFun (congrFun hinv i) j
  rw [Matrix.mul_apply, Matrix.one_apply] at h
  rw [← h]
  unfold hexPhysGrad hexJac
  simp only [Finset.mul_sum, Finset.sum_mul]
  rw [Finset.sum_comm]
  exact Finset.sum_congr rfl fun I _ => Finset.sum_congr rfl fun a _ => by ring

/-- **C94.** The displacement gradient is the gradient with respect to the position in the deformed-coordinate map: composed with
the Jacobian of the element map it gives the derivative of the interpolated displacement along the reference coordinates. -/
theorem C94_gradient_chain_rule (nodes u : HexNodes) (x y z : ℝ) (hdet : (hexJac nodes (hexGrad x y z)).det ≠ 0) (i : Fin 3) :
    HasDerivAt (fun t => ∑ a, hexShape a ![t, y, z] * u a i)
      (∑ j, hexGradU u (hexPhysGrad nodes (hexGrad x y z)) i j * deriv (fun t => ∑ a, hexShape a ![t, y, z] * nodes a j) x) x ∧
    HasDerivAt (fun t => ∑ a, hexShape a ![x, t, z] * u a i)
      (∑ j, hexGradU u (hexPhysGrad nodes (hexGrad x y z)) i j * deriv (fun t => ∑ a, hexShape a ![x, t, z] * nodes a j) y) y ∧
    HasDerivAt (fun t => ∑ a, hexShape a ![x, y, t] * u a i)
      (∑ j, hexGradU u (hexPhysGrad nodes (hexGrad x y z)) i j * deriv (fun t => ∑ a, hexShape a ![x, y, t] * nodes a j) z) z := by
  have key : ∀ I, ∑ j, hexGradU u (hexPhysGrad nodes (hexGrad x y z)) i j * (∑ a, hexGrad x y z a I * nodes a j) =
      ∑ a, hexGrad x y z a I * u a i := by
    intro I
    obtain ⟨dN, hd⟩ : ∃ dN, dN = hexGrad x y z := ⟨_, rfl⟩
    rw [← hd] at hdet ⊢
    have hinv : (hexJac nodes dN)⁻¹ * hexJac nodes dN = 1 := Matrix.nonsing_inv_mul _ (isUnit_iff_ne_zero.mpr hdet)
    have e : ∀ a, ∑ j, hexPhysGrad nodes dN a j * (∑ b, dN b I * nodes b j) = dN a I := by
      intro a
      have hJ : ∀ j, (∑ b, dN b I * nodes b j) = hexJac nodes dN j I := by
        intro j
        unfold hexJac
        exact Finset.sum_congr rfl fun b _ => mul_comm _ _
      simp only [hJ, hexPhysGrad, Finset.sum_mul]
      rw [Finset.sum_comm]
      calc ∑ L, ∑ j, dN a L * (hexJac nodes dN)⁻¹ L j * hexJac nodes dN j I
          = ∑ L, dN a L * ((hexJac nodes dN)⁻¹ * hexJac nodes dN) L I := by
            refine Finset.sum_congr rfl fun L _ => ?_
            rw [Matrix.mul_apply, Finset.mul_sum]
            exact Finset.sum_congr rfl fun j _ => by ring
        _ = dN a I := by
            rw [hinv]
            simp [Matrix.one_apply]
    unfold hexGradU
    simp only [Finset.sum_mul]
    rw [Finset.sum_comm]
    refine Finset.sum_congr rfl fun a _ => ?_
    rw [← e a, Finset.sum_mul]
    exact Finset.sum_congr rfl fun j _ => by ring
  have hs := fun a => C94_shape_functions x y z a
  refine ⟨?_, ?_, ?_⟩
  · have hd : ∀ v : Fin 8 → ℝ, HasDerivAt (fun t => ∑ a, hexShape a ![t, y, z] * v a) (∑ a, hexGrad x y z a 0 * v a) x :=
      fun v => HasDerivAt.fun_sum fun a _ => ((hs a).2.2.1).mul_const _
    rw [show (fun j => hexGradU u (hexPhysGrad nodes (hexGrad x y z)) i j * deriv (fun t => ∑ a, hexShape a ![t, y, z] * nodes a j) x) =
      fun j => hexGradU u (hexPhysGrad nodes (hexGrad x y z)) i j * (∑ a, hexGrad x y z a 0 * nodes a j) from
        funext fun j => by rw [(hd fun a => nodes a j).deriv], key]
    exact hd fun a => u a i
  · have hd : ∀ v : Fin 8 → ℝ, HasDerivAt (fun t => ∑ a, hexShape a ![x, t, z] * v a) (∑ a, hexGrad x y z a 1 * v a) y :=
      fun v => HasDerivAt.fun_sum fun a _ => ((hs a).2.2.2.1).mul_const _
    rw [show (fun j => hexGradU u (hexPhysGrad nodes (hexGrad x y z)) i j * deriv (fun t => ∑ a, hexShape a ![x, t, z] * nodes a j) y) =
      fun j => hexGradU u (hexPhysGrad nodes (hexGrad x y z)) i j * (∑ a, hexGrad x y z a 1 * nodes a j) from
        funext fun j => by rw [(hd fun a => nodes a j).deriv], key]
    exact hd fun a => u a i
  · have hd : ∀ v : Fin 8 → ℝ, HasDerivAt (fun t => ∑ a, hexShape a ![x, y, t] * v a) (∑ a, hexGrad x y z a 2 * v a) z :=
      fun v => HasDerivAt.fun_sum fun a _ => ((hs a).2.2.2.2).mul_const _
    rw [show (fun j => hexGradU u (hexPhysGrad nodes (hexGrad x y z)) i j * deriv (fun t => ∑ a, hexShape a ![x, y, t] * nodes a j) z) =
      fun j => hexGradU u (hexPhysGrad nodes (hexGrad x y z)) i j * (∑ a, hexGrad x y z a 2 * nodes a j) from
        funext fun j => by rw [(hd fun a => nodes a j).deriv], key]
    exact hd fun a => u a i

theorem gradU_affine {nodes dN : HexNodes} (h : ∀ I, ∑ a, dN a I = 0) (hdet : (hexJac nodes dN).det ≠ 0) (A : Arr2 ℝ 3) (c : Fin 3 → ℝ) :
    hexGradU (fun a i => c i + ∑ k, A i k * nodes a k) (hexPhysGrad nodes dN) = A := by
  funext i j
  unfold hexGradU
  simp only [add_mul, Finset.sum_add_distrib]
  rw [← Finset.mul_sum, physGrad_sum h, mul_zero, zero_add]
  simp only [Finset.sum_mul]
  rw [Finset.sum_comm]
  calc ∑ k, ∑ a, A i k * nodes a k * hexPhysGrad nodes dN a j = ∑ k, A i k * (if k = j then 1 else 0) := by
        refine Finset.sum_congr rfl fun k _ => ?_
        rw [← physGrad_nodes hdet k j, Finset.mul_sum]
        exact Finset.sum_congr rfl fun a _ => by ring
    _ = A i j := by simp

/-! ### Residual of an element -/

/-- The thermal strain of a point, zero where none is given. -/
noncomputable def freeStrain (q : LayeredQuad) : Arr2 ℝ 3 := match q.eth with
  | none => 0
  | some e => e

theorem layeredStress_eq (nodes u : HexNodes) (q : LayeredQuad) :
    layeredStress nodes u q = ddot q.C fun i j => hexStrain u (hexPhysGrad nodes q.dN) i j - freeStrain q i j := by
  unfold layeredStress freeStrain
  cases q.eth <;> simp

/-- The volume that a point stands for. -/
noncomputable def volumeAt (nodes : HexNodes) (q : LayeredQuad) : ℝ := q.w * (hexJac nodes q.dN).det

/-- **C94.** The work of the nodal forces of the element on any nodal field is the sum over the points of the volume there times the
stress reported by `layered_quad_stress` contracted with the gradient of the field. -/
theorem C94_virtual_work (qs : List LayeredQuad) (nodes u v : HexNodes) :
    ∑ a, ∑ i, layeredKernel qs nodes u a i * v a i =
      (List.zipWith (fun q s => volumeAt nodes q * ∑ i, ∑ j, s i j * hexGradU v (hexPhysGrad nodes q.dN) i j) qs
        (layeredQuadStress qs nodes u)).sum := by
  have hz : List.zipWith (fun q (s : Arr2 ℝ 3) => volumeAt nodes q * ∑ i, ∑ j, s i j * hexGradU v (hexPhysGrad nodes q.dN) i j) qs
      (layeredQuadStress qs nodes u) = qs.map fun q => volumeAt nodes q * ∑ i, ∑ j, layeredStress nodes u q i j *
        hexGradU v (hexPhysGrad nodes q.dN) i j := by
    unfold layeredQuadStress
    rw [List.zipWith_map_right, List.zipWith_self]
    rfl
  rw [hz]
  unfold layeredKernel
  simp only [list_sum_mul]
  simp only [← list_sum_finset]
  congr 1
  apply List.map_congr_left
  intro q _
  simp only [hexGradU, volumeAt, Finset.mul_sum, Finset.sum_mul]
  rw [Finset.sum_comm]
  refine Finset.sum_congr rfl fun i _ => ?_
  rw [Finset.sum_comm]
  refine Finset.sum_congr rfl fun j _ => Finset.sum_congr rfl fun a _ => by ring

theorem virtual_work_stress (qs : List LayeredQuad) (nodes u v : HexNodes) :
    ∑ a, ∑ i, layeredKernel qs nodes u a i * v a i =
      (qs.map fun q => volumeAt nodes q * ∑ i, ∑ j, layeredStress nodes u q i j * hexGradU v (hexPhysGrad nodes q.dN) i j).sum := by
  rw [C94_virtual_work]
  unfold layeredQuadStress
  rw [List.zipWith_map_right, List.zipWith_self]
  rfl

/-- The strain energy of the element. -/
noncomputable def layeredEnergy (qs : List LayeredQuad) (nodes u : HexNodes) : ℝ :=
  (qs.map fun q => volumeAt nodes q * (1 / 2 * ∑ i, ∑ j, (hexStrain u (hexPhysGrad nodes q.dN) i j - freeStrain q i j) *
    ddot q.C (fun k l => hexStrain u (hexPhysGrad nodes q.dN) k l - freeStrain q k l) i j)).sum

theorem gradU_line (u v g : HexNodes) (t : ℝ) (i j : Fin 3) :
    hexGradU (fun a i => u a i + t * v a i) g i j = hexGradU u g i j + t * hexGradU v g i j := by
  unfold hexGradU
  rw [Finset.mul_sum, ← Finset.sum_add_distrib]
  exact Finset.sum_congr rfl fun a _ => by ring

theorem strain_line (u v g : HexNodes) (t : ℝ) (i j : Fin 3) :
    hexStrain (fun a i => u a i + t * v a i) g i j = hexStrain u g i j + t * hexStrain v g i j := by
  simp only [hexStrain, gradU_line]
  ring

theorem symm_contract {s : Arr2 ℝ 3} (hs : ∀ i j, s i j = s j i) (u g : HexNodes) :
    ∑ i, ∑ j, s i j * hexGradU u g i j = ∑ i, ∑ j, s i j * hexStrain u g i j := by
  have h : ∑ i, ∑ j, s i j * hexGradU u g j i = ∑ i, ∑ j, s i j * hexGradU u g i j := by
    rw [Finset.sum_comm]
    exact Finset.sum_congr rfl fun i _ => Finset.sum_congr rfl fun j _ => by rw [hs]
  have e : ∑ i, ∑ j, s i j * hexStrain u g i j = 1 / 2 * (∑ i, ∑ j, s i j * hexGradU u g i j) +
      1 / 2 * ∑ i, ∑ j, s i j * hexGradU u g j i := by
    simp only [Finset.mul_sum, ← Finset.sum_add_distrib, hexStrain]
    exact Finset.sum_congr rfl fun i _ => Finset.sum_congr rfl fun j _ => by ring
  rw [e, h]
  ring

/-- **C94.** The nodal forces of the element are the gradient of its strain energy. -/
theorem C94_residual_is_the_energy_gradient (qs : List LayeredQuad) (hC : ∀ q ∈ qs, StiffnessSymmetric q.C) (nodes u v : HexNodes) :
    HasDerivAt (fun t => layeredEnergy qs nodes fun a i => u a i + t * v a i) (∑ a, ∑ i, layeredKernel qs nodes u a i * v a i) 0 := by
  rw [virtual_work_stress]
  unfold layeredEnergy
  refine hasDerivAt_list_sum qs _ _ 0 fun q hq => ?_
  have hS := hC q hq
  have hq := quad_deriv q.C (fun t i j => hexStrain (fun a i => u a i + t * v a i) (hexPhysGrad nodes q.dN) i j - freeStrain q i j)
    (fun t i j => hexStrain (fun a i => u a i + t * v a i) (hexPhysGrad nodes q.dN) i j - freeStrain q i j)
    (hexStrain v (hexPhysGrad nodes q.dN)) (hexStrain v (hexPhysGrad nodes q.dN))
    (fun i j => by
      simp only [strain_line]
      exact (line_deriv _ _).sub_const _)
    (fun i j => by
      simp only [strain_line]
      exact (line_deriv _ _).sub_const _)
  refine ((hq.const_mul (1 / 2)).const_mul (volumeAt nodes q)).congr_deriv ?_
  congr 1
  simp only [Finset.sum_add_distrib]
  rw [major_swap hS (fun i j => hexStrain (fun a i => u a i + 0 * v a i) (hexPhysGrad nodes q.dN) i j - freeStrain q i j)]
  rw [layeredStress_eq, symm_contract (ddot_symm hS _)]
  simp only [zero_mul, add_zero, ← two_mul]
  rw [← mul_assoc]
  norm_num
  exact Finset.sum_congr rfl fun i _ => Finset.sum_congr rfl fun j _ => by ring

/-- **C94.** The Jacobian of the element's forces is symmetric: the forces are affine in the nodal field, and the work of the change of
the forces under `v` on `w` is that of the change under `w` on `v`. -/
theorem C94_tangent_symmetric (qs : List LayeredQuad) (hC : ∀ q ∈ qs, StiffnessSymmetric q.C) (nodes u v w : HexNodes) (t : ℝ) :
    (∀ a i, layeredKernel qs nodes (fun b j => u b j + t * v b j) a i =
      layeredKernel qs nodes u a i + t * (layeredKernel qs nodes v a i - layeredKernel qs nodes 0 a i)) ∧
    ∑ a, ∑ i, (layeredKernel qs nodes v a i - layeredKernel qs nodes 0 a i) * w a i =
      ∑ a, ∑ i, (layeredKernel qs nodes w a i - layeredKernel qs nodes 0 a i) * v a i := by
  have h0 : ∀ g : HexNodes, hexStrain 0 g = 0 := by
    intro g; funext i j; simp [hexStrain, hexGradU]
  have hlin : ∀ (v : HexNodes) q i j, layeredStress nodes v q i j - layeredStress nodes 0 q i j =
      ddot q.C (hexStrain v (hexPhysGrad nodes q.dN)) i j := by
    intro v q i j
    rw [layeredStress_eq, layeredStress_eq, h0]
    simp only [ddot, ← Finset.sum_sub_distrib]
    exact Finset.sum_congr rfl fun k _ => Finset.sum_congr rfl fun l _ => by simp only [Pi.zero_apply]; ring
  have hwork : ∀ v w : HexNodes, ∑ a, ∑ i, (layeredKernel qs nodes v a i - layeredKernel qs nodes 0 a i) * w a i =
      (qs.map fun q => volumeAt nodes q * ∑ i, ∑ j, hexStrain w (hexPhysGrad nodes q.dN) i j *
        ddot q.C (hexStrain v (hexPhysGrad nodes q.dN)) i j).sum := by
    intro v w
    simp only [sub_mul, Finset.sum_sub_distrib]
    rw [virtual_work_stress, virtual_work_stress, ← list_sum_sub]
    congr 1
    apply List.map_congr_left
    intro q hq
    rw [← mul_sub, ← Finset.sum_sub_distrib]
    simp only [← Finset.sum_sub_distrib, ← sub_mul, hlin]
    rw [symm_contract (ddot_symm (hC q hq) _)]
    congr 1
    exact Finset.sum_congr rfl fun i _ => Finset.sum_congr rfl fun j _ => by ring
  constructor
  · intro a i
    unfold layeredKernel
    rw [← list_sum_sub, list_mul_sum, ← List.sum_map_add]
    congr 1
    apply List.map_congr_left
    intro q _
    rw [← Finset.sum_sub_distrib, Finset.mul_sum, ← Finset.sum_add_distrib]
    refine Finset.sum_congr rfl fun j _ => ?_
    have e : layeredStress nodes (fun b j => u b j + t * v b j) q i j = layeredStress nodes u q i j +
        t * (layeredStress nodes v q i j - layeredStress nodes 0 q i j) := by
      rw [hlin, layeredStress_eq, layeredStress_eq]
      simp only [ddot, Finset.mul_sum, ← Finset.sum_add_distrib, strain_line]
      exact Finset.sum_congr rfl fun k _ => Finset.sum_congr rfl fun l _ => by ring
    rw [e]
    ring
  · rw [hwork, hwork]
    congr 1
    apply List.map_congr_left
    intro q hq
    rw [major_swap (hC q hq)]

/-- What the created elements satisfy: the reference gradients come from a reference point, the element map is regular there. -/
def Regular (nodes : HexNodes) (qs : List LayeredQuad) : Prop :=
  ∀ q ∈ qs, (∃ x y z, q.dN = hexGrad x y z) ∧ (hexJac nodes q.dN).det ≠ 0

theorem regular_sum {nodes : HexNodes} {qs : List LayeredQuad} (h : Regular nodes qs) (q : LayeredQuad) (hq : q ∈ qs) (I : Fin 3) :
    ∑ a, q.dN a I = 0 := by
  obtain ⟨⟨x, y, z, e⟩, _⟩ := h q hq
  rw [e, hexGrad_sum]

/-- **C94.** Patch test: under nodal displacements that are affine in the position, every point reports the stress of that constant
strain, less the thermal strain of the point. -/
theorem C94_patch (qs : List LayeredQuad) (nodes : HexNodes) (h : Regular nodes qs) (A : Arr2 ℝ 3) (c : Fin 3 → ℝ) :
    layeredQuadStress qs nodes (fun a i => c i + ∑ k, A i k * nodes a k) =
      qs.map fun q => ddot q.C fun i j => (A i j + A j i) / 2 - freeStrain q i j := by
  have : layeredQuadStress qs nodes (fun a i => c i + ∑ k, A i k * nodes a k) =
      qs.map (layeredStress nodes fun a i => c i + ∑ k, A i k * nodes a k) := rfl
  rw [this]
  apply List.map_congr_left
  intro q hq
  rw [layeredStress_eq]
  congr 1
  funext i j
  simp only [hexStrain]
  rw [gradU_affine (regular_sum h q hq) (h q hq).2]
  ring

/-- **C94.** Displacements whose strain is the thermal strain, such as rigid motions without heating and free expansion under uniform
heating, leave the element without nodal forces. -/
theorem C94_no_spurious_forces (qs : List LayeredQuad) (nodes : HexNodes) (h : Regular nodes qs) (A : Arr2 ℝ 3) (c : Fin 3 → ℝ)
    (hA : ∀ q ∈ qs, ∀ i j, (A i j + A j i) / 2 = freeStrain q i j) :
    layeredKernel qs nodes (fun a i => c i + ∑ k, A i k * nodes a k) = 0 := by
  funext a i
  unfold layeredKernel
  have : ∀ q ∈ qs, ∑ j, q.w * (hexJac nodes q.dN).det * layeredStress nodes (fun a i => c i + ∑ k, A i k * nodes a k) q i j *
      hexPhysGrad nodes q.dN a j = 0 := by
    intro q hq
    apply Finset.sum_eq_zero
    intro j _
    have e : layeredStress nodes (fun a i => c i + ∑ k, A i k * nodes a k) q = 0 := by
      rw [layeredStress_eq]
      funext k l
      simp only [ddot]
      apply Finset.sum_eq_zero
      intro m _
      apply Finset.sum_eq_zero
      intro n _
      simp only [hexStrain]
      rw [gradU_affine (regular_sum h q hq) (h q hq).2, ← hA q hq m n]
      ring
    rw [e]
    simp
  rw [List.map_congr_left this]
  simp

/-- **C94.** The nodal forces of an element balance: their sum vanishes, and so does their moment about the origin. -/
theorem C94_balance (qs : List LayeredQuad) (nodes u : HexNodes) (h : Regular nodes qs) (hC : ∀ q ∈ qs, StiffnessSymmetric q.C) :
    (∀ i, ∑ a, layeredKernel qs nodes u a i = 0) ∧
    ∀ i j, ∑ a, (nodes a i * layeredKernel qs nodes u a j - nodes a j * layeredKernel qs nodes u a i) = 0 := by
  have hvw : ∀ (A : Arr2 ℝ 3) (c : Fin 3 → ℝ), (∀ i j, A i j = -A j i) →
      ∑ a, ∑ i, layeredKernel qs nodes u a i * (c i + ∑ k, A i k * nodes a k) = 0 := by
    intro A c hA
    rw [virtual_work_stress qs nodes u fun a i => c i + ∑ k, A i k * nodes a k]
    have : ∀ q ∈ qs, volumeAt nodes q * ∑ i, ∑ j, layeredStress nodes u q i j *
        hexGradU (fun a i => c i + ∑ k, A i k * nodes a k) (hexPhysGrad nodes q.dN) i j = 0 := by
      intro q hq
      rw [layeredStress_eq, symm_contract (ddot_symm (hC q hq) _)]
      simp only [hexStrain]
      rw [gradU_affine (regular_sum h q hq) (h q hq).2]
      have hz : ∀ i j, A i j + A j i = 0 := fun i j => by rw [hA i j]; ring
      simp [hz]
    rw [List.map_congr_left this]
    simp
  constructor
  · intro i
    have := hvw 0 (fun j => if j = i then 1 else 0) (by simp)
    simpa using this
  · intro i j
    have hA := hvw (fun k l => (if k = j then 1 else 0) * (if l = i then 1 else 0) - (if k = i then 1 else 0) * (if l = j then 1 else 0)) 0
      (fun k l => by ring)
    rw [← hA]
    refine Finset.sum_congr rfl fun a _ => ?_
    simp only [Pi.zero_apply, zero_add, sub_mul, Finset.sum_sub_distrib, mul_sub]
    simp
    ring

/-! ### The created problems -/

/-- **C94.** `create_layered_solid` refuses another element type, and a number of thicknesses or of stiffnesses other than the number
of angles; otherwise the data at each quadrature point are the gradients and weight of the reference rule there, and the stiffness of the ply of
the point rotated by its angle about the normal. A single stiffness serves every ply. -/
theorem C94_create_layered (ele : String) (C : PerLayer (Arr4 ℝ 3)) (angles thick : List ℝ) (normal : Fin 3 → ℝ) (hn : normal ≠ 0)
    (r r' : List (ℝ × ℝ)) :
    (ele ≠ "HEX8" → createLayeredSolid ele C angles thick normal r r' = .error .notImplemented) ∧
    (thick.length ≠ angles.length → createLayeredSolid "HEX8" C angles thick normal r r' = .error .valueError) ∧
    (∀ cs, C = .each cs → thick.length = angles.length → cs.length ≠ angles.length →
      createLayeredSolid "HEX8" C angles thick normal r r' = .error .valueError) ∧
    (∀ cs, (C = .each cs ∨ ∃ c, C = .one c ∧ cs = angles.map fun _ => c) → cs.length = angles.length → thick.length = angles.length →
      createLayeredSolid "HEX8" C angles thick normal r r' = .ok ((layeredQuadrature thick r r').map fun p =>
        ⟨hexGrad p.x p.y p.z, p.w, rotate4 (cs.getD p.ply 0) (rotationMatrixAxis (angles.getD p.ply 0) normal), none⟩)) := by
  refine ⟨?_, ?_, ?_, ?_⟩
  · intro h
    simp [createLayeredSolid, h, bind, Except.bind, throw, throwThe, MonadExceptOf.throw]
  · intro h
    simp [createLayeredSolid, h, bind, Except.bind, throw, throwThe, MonadExceptOf.throw]
  · rintro cs rfl h h'
    simp [createLayeredSolid, broadcastPlies, h, h', bind, Except.bind, throw, throwThe, MonadExceptOf.throw, pure, Except.pure]
  · intro cs hcs hl ht
    have hb : broadcastPlies C angles.length = .ok cs := by
      rcases hcs with rfl | ⟨c, rfl, rfl⟩
      · simp [broadcastPlies, hl]
      · simp [broadcastPlies, List.map_const']
    simp only [createLayeredSolid, ht, hb, bind, Except.bind, throw, throwThe, MonadExceptOf.throw, pure, Except.pure, ne_eq,
      not_true_eq_false, if_false]
    congr 1
    apply List.map_congr_left
    intro p hp
    have hply : p.ply < angles.length := by
      unfold layeredQuadrature at hp
      simp only [List.mem_flatMap, List.mem_map, List.mem_range] at hp
      obtain ⟨k, hk, gz, hgz, gx, hgx, gy, hgy, rfl⟩ := hp
      exact ht ▸ hk
    have hlen : 0 < Real.sqrt (∑ i, normal i ^ 2) := by
      apply Real.sqrt_pos.mpr
      obtain ⟨i, hi⟩ := Function.ne_iff.mp hn
      exact lt_of_lt_of_le (by have : normal i ≠ 0 := hi
                               positivity) (Finset.single_le_sum (f := fun i => normal i ^ 2) (fun j _ => sq_nonneg _) (Finset.mem_univ i))
    have haxis := (C91_axis_rotation normal hn 0 (angles.getD p.ply 0)).2.2.2.1 (1 / Real.sqrt (∑ i, normal i ^ 2)) (by positivity)
    have hrw : (fun i => normal i / Real.sqrt (∑ i, normal i ^ 2)) = fun i => 1 / Real.sqrt (∑ i, normal i ^ 2) * normal i := by
      funext i; ring
    rw [← haxis, ← hrw]
    congr 1
    rw [List.getD_eq_getElem _ _ (by rw [List.length_zipWith, hl, min_self]; exact hply), List.getElem_zipWith,
      List.getD_eq_getElem _ _ (hl ▸ hply), List.getD_eq_getElem _ _ hply]

/-- **C94.** `create_oriented_layered_solid` refuses another element type and mismatched numbers of plies; otherwise each point has
the stiffness, and with thermal strains the expansion, of its own ply, and zero expansion when none is given. -/
theorem C94_create_oriented (ele : String) (C : List (Arr4 ℝ 3)) (thick : List ℝ) (r r' : List (ℝ × ℝ)) (cte : List (Arr2 ℝ 3)) :
    (ele ≠ "HEX8" → ∀ w e, createOrientedLayeredSolid ele C thick r r' w e = .error .notImplemented) ∧
    (thick.length ≠ C.length → ∀ w e, createOrientedLayeredSolid "HEX8" C thick r r' w e = .error .valueError) ∧
    (thick.length = C.length → cte.length ≠ C.length → createOrientedLayeredSolid "HEX8" C thick r r' true (some cte) = .error .valueError) ∧
    (thick.length = C.length →
      createOrientedLayeredSolid "HEX8" C thick r r' false none = .ok ((layeredQuadrature thick r r').map fun p =>
        ⟨hexGrad p.x p.y p.z, p.w, C.getD p.ply 0, none⟩) ∧
      createOrientedLayeredSolid "HEX8" C thick r r' true none = .ok ((layeredQuadrature thick r r').map fun p =>
        ⟨hexGrad p.x p.y p.z, p.w, C.getD p.ply 0, some 0⟩) ∧
      (cte.length = C.length → createOrientedLayeredSolid "HEX8" C thick r r' true (some cte) = .ok ((layeredQuadrature thick r r').map fun p =>
        ⟨hexGrad p.x p.y p.z, p.w, C.getD p.ply 0, some (cte.getD p.ply 0)⟩) ∧
        expandCte cte thick r r' = (layeredQuadrature thick r r').map fun p => cte.getD p.ply 0)) := by
  refine ⟨?_, ?_, ?_, ?_⟩
  · intro h w e
    simp [createOrientedLayeredSolid, h, bind, Except.bind, throw, throwThe, MonadExceptOf.throw]
  · intro h w e
    simp [createOrientedLayeredSolid, h, bind, Except.bind, throw, throwThe, MonadExceptOf.throw]
  · intro h h'
    simp [createOrientedLayeredSolid, h, h', bind, Except.bind, throw, throwThe, MonadExceptOf.throw]
  · intro h
    refine ⟨?_, ?_, ?_⟩
    · simp [createOrientedLayeredSolid, h, bind, Except.bind, throw, throwThe, MonadExceptOf.throw, pure, Except.pure]
    · simp [createOrientedLayeredSolid, h, bind, Except.bind, throw, throwThe, MonadExceptOf.throw, pure, Except.pure]
    · intro h'
      constructor
      · simp [createOrientedLayeredSolid, h, h', bind, Except.bind, throw, throwThe, MonadExceptOf.throw, pure, Except.pure]
      · unfold expandCte
        apply List.map_congr_left
        intro p hp
        have hply : p.ply < thick.length := by
          unfold layeredQuadrature at hp
          simp only [List.mem_flatMap, List.mem_map, List.mem_range] at hp
          obtain ⟨k, hk, gz, hgz, gx, hgx, gy, hgy, rfl⟩ := hp
          exact hk
        rw [min_eq_left (by omega)]

/-- A parallelepiped: the image of the unit cube under `p ↦ c + M p`. -/
def Parallelepiped (nodes : HexNodes) (c : Fin 3 → ℝ) (M : Matrix (Fin 3) (Fin 3) ℝ) : Prop :=
  ∀ a i, nodes a i = c i + ∑ I, M i I * hexCorner a I

theorem parallelepiped_jac {nodes : HexNodes} {c : Fin 3 → ℝ} {M : Matrix (Fin 3) (Fin 3) ℝ} (h : Parallelepiped nodes c M) (x y z : ℝ) :
    hexJac nodes (hexGrad x y z) = M := by
  funext i I
  unfold hexJac
  simp only [h _ i, add_mul, Finset.sum_add_distrib]
  rw [← Finset.mul_sum, hexGrad_sum, mul_zero, zero_add]
  simp only [Finset.sum_mul]
  rw [Finset.sum_comm]
  calc ∑ L, ∑ a, M i L * hexCorner a L * hexGrad x y z a I = ∑ L, M i L * (if L = I then 1 else 0) := by
        refine Finset.sum_congr rfl fun L _ => ?_
        rw [← hexGrad_corner x y z L I, Finset.mul_sum]
        exact Finset.sum_congr rfl fun a _ => by ring
    _ = M i I := by simp

theorem hexGrad_poly (a : Fin 8) (I : Fin 3) :
    (∀ y z, PolyIn 1 fun x => hexGrad x y z a I) ∧ (∀ x z, PolyIn 1 fun y => hexGrad x y z a I) ∧
    (∀ x y, PolyIn 1 fun z => hexGrad x y z a I) := by
  have lin : ∀ b : ℝ, PolyIn 1 fun t => b * t + (1 - b) * (1 - t) := by
    intro b
    refine ⟨Polynomial.C (2 * b - 1) * Polynomial.X + Polynomial.C (1 - b), by compute_degree, fun t => ?_⟩
    simp
    ring
  have cst : ∀ b : ℝ, PolyIn 1 fun _ => b := fun b => polyIn_mono (Nat.zero_le _) (polyIn_const b)
  have m1 : ∀ {f : ℝ → ℝ} (b : ℝ), PolyIn 1 f → PolyIn 1 fun t => f t * b := by
    intro f b hf
    simpa using polyIn_mul hf (polyIn_const b)
  have m2 : ∀ {f : ℝ → ℝ} (b : ℝ), PolyIn 1 f → PolyIn 1 fun t => b * f t := fun b hf => polyIn_const_mul b hf
  simp only [hexGrad_eq]
  fin_cases I
  · refine ⟨fun y z => ?_, fun x z => ?_, fun x y => ?_⟩
    · exact cst _
    · exact m1 _ (m2 _ (lin _))
    · exact m2 _ (lin _)
  · refine ⟨fun y z => ?_, fun x z => ?_, fun x y => ?_⟩
    · exact m1 _ (m1 _ (lin _))
    · exact cst _
    · exact m2 _ (lin _)
  · refine ⟨fun y z => ?_, fun x z => ?_, fun x y => ?_⟩
    · exact m1 _ (m1 _ (lin _))
    · exact m1 _ (m2 _ (lin _))
    · exact cst _

/-- The work of the stress on the gradient of `v`, per unit of reference volume, at the point `(x, y, z)` of an element. -/
noncomputable def stressPower (nodes u v : HexNodes) (C : Arr4 ℝ 3) (eth : Arr2 ℝ 3) (x y z : ℝ) : ℝ :=
  (hexJac nodes (hexGrad x y z)).det * ∑ i, ∑ j, ddot C (fun k l => hexStrain u (hexPhysGrad nodes (hexGrad x y z)) k l - eth k l) i j *
    hexGradU v (hexPhysGrad nodes (hexGrad x y z)) i j

theorem stressPower_poly {nodes : HexNodes} {c : Fin 3 → ℝ} {M : Matrix (Fin 3) (Fin 3) ℝ} (h : Parallelepiped nodes c M)
    (u v : HexNodes) (C : Arr4 ℝ 3) (eth : Arr2 ℝ 3) :
    (∀ y z, PolyIn 2 fun x => stressPower nodes u v C eth x y z) ∧ (∀ x z, PolyIn 2 fun y => stressPower nodes u v C eth x y z) ∧
    (∀ x y, PolyIn 2 fun z => stressPower nodes u v C eth x y z) := by
  have main : ∀ (X Y Z : ℝ → ℝ), (∀ a I, PolyIn 1 fun t => hexGrad (X t) (Y t) (Z t) a I) →
      PolyIn 2 fun t => stressPower nodes u v C eth (X t) (Y t) (Z t) := by
    intro X Y Z hp
    have hgrad : ∀ (w : HexNodes) i j, PolyIn 1 fun t => hexGradU w (hexPhysGrad nodes (hexGrad (X t) (Y t) (Z t))) i j := by
      intro w i j
      unfold hexGradU hexPhysGrad
      simp only [parallelepiped_jac h]
      refine polyIn_sum _ _ fun a _ => polyIn_const_mul _ (polyIn_sum _ _ fun I _ => ?_)
      simpa using polyIn_mul (hp a I) (polyIn_const _)
    have hstress : ∀ i j, PolyIn 1 fun t => ddot C (fun k l => hexStrain u (hexPhysGrad nodes (hexGrad (X t) (Y t) (Z t))) k l - eth k l) i j := by
      intro i j
      unfold ddot
      refine polyIn_sum _ _ fun k _ => polyIn_sum _ _ fun l _ => polyIn_const_mul _ ?_
      simp only [sub_eq_add_neg]
      refine polyIn_add ?_ (polyIn_mono (Nat.zero_le _) (polyIn_const _))
      unfold hexStrain
      exact polyIn_const_mul _ (polyIn_add (hgrad u k l) (hgrad u l k))
    unfold stressPower
    simp only [parallelepiped_jac h] at hgrad hstress ⊢
    exact polyIn_const_mul _ (polyIn_sum _ _ fun i _ => polyIn_sum _ _ fun j _ => polyIn_mul (hstress i j) (hgrad v i j))
  exact ⟨fun y z => main (fun x => x) (fun _ => y) (fun _ => z) fun a I => (hexGrad_poly a I).1 y z,
    fun x z => main (fun _ => x) (fun y => y) (fun _ => z) fun a I => (hexGrad_poly a I).2.1 x z,
    fun x y => main (fun _ => x) (fun _ => y) (fun z => z) fun a I => (hexGrad_poly a I).2.2 x y⟩

theorem element_exact (thick : List ℝ) {r r' : List (ℝ × ℝ)} (hr : GaussRule 2 r) (hr' : GaussRule 2 r') {nodes : HexNodes} {c : Fin 3 → ℝ}
    {M : Matrix (Fin 3) (Fin 3) ℝ} (h : Parallelepiped nodes c M) (u v : HexNodes) (C : ℕ → Arr4 ℝ 3) (eth : ℕ → Option (Arr2 ℝ 3)) :
    ∑ a, ∑ i, layeredKernel ((layeredQuadrature thick r r').map fun p => ⟨hexGrad p.x p.y p.z, p.w, C p.ply, eth p.ply⟩) nodes u a i * v a i =
      ∑ k ∈ Finset.range thick.length, slabIntegral thick k (stressPower nodes u v (C k) ((eth k).getD 0)) := by
  rw [virtual_work_stress, ← C94_quadrature_exact thick hr hr' (fun k => stressPower nodes u v (C k) ((eth k).getD 0))
    (fun k _ => (stressPower_poly h u v _ _).1) (fun k _ => (stressPower_poly h u v _ _).2.1) (fun k _ => (stressPower_poly h u v _ _).2.2),
    List.map_map]
  congr 1
  apply List.map_congr_left
  intro p _
  simp only [Function.comp, volumeAt, stressPower, layeredStress_eq]
  have : freeStrain ⟨hexGrad p.x p.y p.z, p.w, C p.ply, eth p.ply⟩ = (eth p.ply).getD 0 := by
    unfold freeStrain
    cases eth p.ply <;> rfl
  rw [this]
  ring

/-- **C94.** With two Gauss points in each direction (any rule exact to the second degree) and elements that are parallelepipeds, the work
of the element forces is the exact integral, ply by ply, of stress times gradient, however many plies and however different. -/
theorem C94_exact_through_the_thickness (cs : List (Arr4 ℝ 3)) (angles thick : List ℝ) (normal : Fin 3 → ℝ) (hn : normal ≠ 0)
    {r r' : List (ℝ × ℝ)} (hr : GaussRule 2 r) (hr' : GaussRule 2 r') (hc : cs.length = angles.length) (ht : thick.length = angles.length)
    {nodes : HexNodes} {c : Fin 3 → ℝ} {M : Matrix (Fin 3) (Fin 3) ℝ} (h : Parallelepiped nodes c M) (u v : HexNodes) :
    ∃ qs, createLayeredSolid "HEX8" (.each cs) angles thick normal r r' = .ok qs ∧
      ∑ a, ∑ i, layeredKernel qs nodes u a i * v a i = ∑ k ∈ Finset.range thick.length, slabIntegral thick k
        (stressPower nodes u v (rotate4 (cs.getD k 0) (rotationMatrixAxis (angles.getD k 0) normal)) 0) := by
  have hrun := (C94_create_layered "HEX8" (.each cs) angles thick normal hn r r').2.2.2 cs (Or.inl rfl) hc ht
  refine ⟨_, hrun, ?_⟩
  exact element_exact thick hr hr' h u v (fun k => rotate4 (cs.getD k 0) (rotationMatrixAxis (angles.getD k 0) normal)) fun _ => none

/-- **C94.** The same with given ply stiffnesses and thermal strains. -/
theorem C94_exact_with_thermal_strain (C : List (Arr4 ℝ 3)) (cte : List (Arr2 ℝ 3)) (thick : List ℝ) {r r' : List (ℝ × ℝ)}
    (hr : GaussRule 2 r) (hr' : GaussRule 2 r') (hc : cte.length = C.length) (ht : thick.length = C.length)
    {nodes : HexNodes} {c : Fin 3 → ℝ} {M : Matrix (Fin 3) (Fin 3) ℝ} (h : Parallelepiped nodes c M) (u v : HexNodes) :
    ∃ qs, createOrientedLayeredSolid "HEX8" C thick r r' true (some cte) = .ok qs ∧
      ∑ a, ∑ i, layeredKernel qs nodes u a i * v a i = ∑ k ∈ Finset.range thick.length, slabIntegral thick k
        (stressPower nodes u v (C.getD k 0) (cte.getD k 0)) := by
  have hrun := ((C94_create_oriented "HEX8" C thick r r' cte).2.2.2 ht).2.2 hc
  refine ⟨_, hrun.1, ?_⟩
  exact element_exact thick hr hr' h u v (fun k => C.getD k 0) fun k => some (cte.getD k 0)

/-- The unit cube, two plies, two-point rules: the hypotheses hold. -/
example : GaussRule 2 gaussTwo ∧ Parallelepiped hexCorner 0 1 ∧ ([1, 2] : List ℝ).length = ([0, Real.pi / 2] : List ℝ).length ∧
    Regular hexCorner ((layeredQuadrature [1, 2] gaussTwo gaussTwo).map fun p => ⟨hexGrad p.x p.y p.z, p.w, isotropic3d 1 0, none⟩) ∧
    StiffnessSymmetric (isotropic3d 1 0) := by
  have hp : Parallelepiped hexCorner 0 1 := by
    intro a i
    simp [Matrix.one_apply]
  refine ⟨⟨gaussTwo_rule.points, gaussTwo_rule.weights, fun i hi => gaussTwo_rule.exact i (by omega)⟩, hp, rfl, ?_,
    (C91_isotropic 1 0 one_ne_zero (by norm_num)).2.2.2.1⟩
  intro q hq
  rw [List.mem_map] at hq
  obtain ⟨p, _, rfl⟩ := hq
  refine ⟨⟨_, _, _, rfl⟩, ?_⟩
  rw [parallelepiped_jac hp, Matrix.det_one]
  exact one_ne_zero

/-- **C94.** Nodal values interpolated to the quadrature points: constants are kept, functions affine in the position are reproduced at the
position of the point, and no value leaves the range of the nodal values. -/
theorem C94_interpolation (thick : List ℝ) (hpos : ∀ t ∈ thick, 0 ≤ t) (hsum : 0 < thick.sum) {m m' : ℕ} {r r' : List (ℝ × ℝ)}
    (hr : GaussRule m r) (hr' : GaussRule m' r') (nodes : HexNodes) (c : ℝ) (g : Fin 3 → ℝ) (f : Fin 8 → ℝ) (lo hi : ℝ)
    (hf : ∀ a, lo ≤ f a ∧ f a ≤ hi) :
    interpolateToQuad (fun a => c + ∑ i, g i * nodes a i) thick r r' =
      (layeredQuadrature thick r r').map (fun p => c + ∑ i, g i * ∑ a, hexShape a ![p.x, p.y, p.z] * nodes a i) ∧
    ∀ s ∈ interpolateToQuad f thick r r', lo ≤ s ∧ s ≤ hi := by
  have hone : ∀ x y z : ℝ, ∑ a, hexVals x y z a = 1 := by
    intro x y z
    simp only [hexVals_eq, hexShape, Fin.prod_univ_three, Fin.sum_univ_eight, hexCorner]
    simp
    ring
  constructor
  · unfold interpolateToQuad
    apply List.map_congr_left
    intro p _
    simp only [mul_add, Finset.sum_add_distrib, Finset.mul_sum]
    rw [← Finset.sum_mul, hone, one_mul, Finset.sum_comm]
    congr 1
    refine Finset.sum_congr rfl fun i _ => Finset.sum_congr rfl fun a _ => ?_
    rw [hexVals_eq]
    ring
  · intro s hs
    unfold interpolateToQuad at hs
    rw [List.mem_map] at hs
    obtain ⟨p, hp, rfl⟩ := hs
    have hq := (C94_quadrature thick hpos hsum hr hr').2.1 p hp
    have hnn : ∀ a, 0 ≤ hexVals p.x p.y p.z a := by
      intro a
      rw [hexVals_eq]
      have h1x : 0 ≤ 1 - p.x := by linarith [hq.2.2.1]
      have h1y : 0 ≤ 1 - p.y := by linarith [hq.2.2.2.2.1]
      have h1z : 0 ≤ 1 - p.z := by linarith [hq.2.2.2.2.2.2.2.2.1]
      have hx := hq.2.1
      have hy := hq.2.2.2.1
      have hz := hq.2.2.2.2.2.2.2.1
      fin_cases a <;> simp [hexShape, hexCorner, Fin.prod_univ_three] <;> positivity
    constructor
    · calc lo = ∑ a, hexVals p.x p.y p.z a * lo := by rw [← Finset.sum_mul, hone, one_mul]
        _ ≤ _ := Finset.sum_le_sum fun a _ => mul_le_mul_of_nonneg_left (hf a).1 (hnn a)
    · calc _ ≤ ∑ a, hexVals p.x p.y p.z a * hi := Finset.sum_le_sum fun a _ => mul_le_mul_of_nonneg_left (hf a).2 (hnn a)
        _ = hi := by rw [← Finset.sum_mul, hone, one_mul]

/-! ### Geometric stiffness -/

/-- The second variation of the work of the prestress: half the prestress contracted with the quadratic part of the strain. -/
noncomputable def prestressEnergy (qs : List (HexNodes × ℝ × Arr2 ℝ 3)) (nodes u : HexNodes) : ℝ :=
  (qs.map fun q => q.2.1 * (hexJac nodes q.1).det * (1 / 2 * ∑ c, ∑ i, ∑ j, q.2.2 i j * hexGradU u (hexPhysGrad nodes q.1) c i *
    hexGradU u (hexPhysGrad nodes q.1) c j)).sum

/-- **C94.** For a symmetric prestress the geometric stiffness forces are the gradient of the second-order work of the prestress,
`½ ∫ σ₀ : (∇u)ᵀ∇u`; they vanish in a translation. -/
theorem C94_geometric_stiffness (qs : List (HexNodes × ℝ × Arr2 ℝ 3)) (nodes u v : HexNodes) (hs : ∀ q ∈ qs, ∀ i j, q.2.2 i j = q.2.2 j i) :
    HasDerivAt (fun t => prestressEnergy qs nodes fun a i => u a i + t * v a i) (∑ a, ∑ c, geometricKernel qs nodes u a c * v a c) 0 ∧
    ((∀ q ∈ qs, ∃ x y z, q.1 = hexGrad x y z) → ∀ c : Fin 3 → ℝ, geometricKernel qs nodes (fun _ => c) = 0) := by
  constructor
  · have hwork : ∑ a, ∑ c, geometricKernel qs nodes u a c * v a c = (qs.map fun q => q.2.1 * (hexJac nodes q.1).det *
        ∑ c, ∑ i, ∑ j, q.2.2 i j * hexGradU v (hexPhysGrad nodes q.1) c i * hexGradU u (hexPhysGrad nodes q.1) c j).sum := by
      unfold geometricKernel
      simp only [list_sum_mul]
      simp only [← list_sum_finset]
      congr 1
      apply List.map_congr_left
      intro q _
      rw [Finset.sum_comm, Finset.mul_sum]
      refine Finset.sum_congr rfl fun c _ => ?_
      have e : ∀ i, hexGradU v (hexPhysGrad nodes q.1) c i = ∑ a, v a c * hexPhysGrad nodes q.1 a i := fun i => rfl
      obtain ⟨U, hU⟩ : ∃ U, U = hexGradU u (hexPhysGrad nodes q.1) := ⟨_, rfl⟩
      rw [← hU]
      simp only [e, Finset.mul_sum, Finset.sum_mul]
      rw [Finset.sum_comm]
      refine Finset.sum_congr rfl fun i _ => ?_
      rw [Finset.sum_comm]
      exact Finset.sum_congr rfl fun j _ => Finset.sum_congr rfl fun a _ => by ring
    rw [hwork]
    unfold prestressEnergy
    refine hasDerivAt_list_sum qs _ _ 0 fun q hq => ?_
    have hd : HasDerivAt (fun t => ∑ c, ∑ i, ∑ j, q.2.2 i j * hexGradU (fun a i => u a i + t * v a i) (hexPhysGrad nodes q.1) c i *
        hexGradU (fun a i => u a i + t * v a i) (hexPhysGrad nodes q.1) c j)
        (∑ c, ∑ i, ∑ j, (q.2.2 i j * hexGradU v (hexPhysGrad nodes q.1) c i * hexGradU u (hexPhysGrad nodes q.1) c j +
          q.2.2 i j * hexGradU u (hexPhysGrad nodes q.1) c i * hexGradU v (hexPhysGrad nodes q.1) c j)) 0 := by
      refine HasDerivAt.fun_sum fun c _ => HasDerivAt.fun_sum fun i _ => HasDerivAt.fun_sum fun j _ => ?_
      simp only [gradU_line]
      refine (((line_deriv _ _).const_mul _).mul (line_deriv _ _)).congr_deriv ?_
      ring
    refine ((hd.const_mul (1 / 2)).const_mul (q.2.1 * (hexJac nodes q.1).det)).congr_deriv ?_
    congr 1
    rw [Finset.mul_sum]
    refine Finset.sum_congr rfl fun c _ => ?_
    simp only [Finset.sum_add_distrib]
    have : ∑ i, ∑ j, q.2.2 i j * hexGradU u (hexPhysGrad nodes q.1) c i * hexGradU v (hexPhysGrad nodes q.1) c j =
        ∑ i, ∑ j, q.2.2 i j * hexGradU v (hexPhysGrad nodes q.1) c i * hexGradU u (hexPhysGrad nodes q.1) c j := by
      rw [Finset.sum_comm]
      exact Finset.sum_congr rfl fun i _ => Finset.sum_congr rfl fun j _ => by rw [hs q hq j i]; ring
    rw [this]
    ring
  · intro hg c
    funext a i
    unfold geometricKernel
    have : ∀ q ∈ qs, (∑ k, q.2.1 * (hexJac nodes q.1).det * hexPhysGrad nodes q.1 a k *
        ∑ j, q.2.2 k j * hexGradU (fun _ => c) (hexPhysGrad nodes q.1) i j) = 0 := by
      intro q hq
      obtain ⟨x, y, z, e⟩ := hg q hq
      apply Finset.sum_eq_zero
      intro k _
      have hz : ∀ j, hexGradU (fun _ => c) (hexPhysGrad nodes q.1) i j = 0 := by
        intro j
        unfold hexGradU
        rw [← Finset.mul_sum, physGrad_sum (fun I => by rw [e, hexGrad_sum]), mul_zero]
      simp [hz]
    dsimp only
    rw [List.map_congr_left this]
    simp

end Verif.Props
