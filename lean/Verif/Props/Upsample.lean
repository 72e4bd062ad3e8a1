import Verif.Model.Upsample
import Mathlib.Tactic.Linarith
import Mathlib.Tactic.Positivity
import Mathlib.Tactic.FieldSimp
import Mathlib.Tactic.NormNum
import Mathlib.Algebra.Order.Round

/-!
# The density a finer level starts from (C146)
-/

namespace Verif.Props
open Verif.Model

/-! ## Specification -/

namespace Spec

/-- A cell of a grid. -/
def InGrid (s : ℕ × ℕ × ℕ) (i j k : ℕ) : Prop := i < s.1 ∧ j < s.2.1 ∧ k < s.2.2

/-- A grid with cells along every axis. -/
def NonemptyGrid (s : ℕ × ℕ × ℕ) : Prop := InGrid s 0 0 0

/-- Quotients `t / s` up to rounding. -/
def Quotients (s t : ℕ × ℕ × ℕ) (fac : ℚ × ℚ × ℚ) : Prop :=
  |s.1 * fac.1 - t.1| < 1 / 2 ∧ |s.2.1 * fac.2.1 - t.2.1| < 1 / 2 ∧ |s.2.2 * fac.2.2 - t.2.2| < 1 / 2

/-- The place of sample `i` of `t` among the samples of an axis, first on first and last on last. -/
def place (s t i : ℕ) : ℚ := if t ≤ 1 then 0 else (i : ℚ) * ((s : ℚ) - 1) / ((t : ℚ) - 1)

end Spec

/-! ## Proofs -/

theorem pyRound_near (q : ℚ) (n : ℤ) (h : |q - n| < 1 / 2) : pyRound q = n := by
  rw [abs_lt] at h
  unfold pyRound
  have h1 := Int.floor_le q
  have h2 := Int.lt_floor_add_one q
  rcases le_or_gt (n : ℚ) q with hq | hq
  · have hf : ⌊q⌋ = n := Int.floor_eq_iff.mpr ⟨hq, by linarith⟩
    simp only [hf]
    rw [if_pos (by linarith)]
  · have hf : ⌊q⌋ = n - 1 := Int.floor_eq_iff.mpr ⟨by push_cast; linarith, by push_cast; linarith⟩
    simp only [hf]
    push_cast
    rw [if_neg (by linarith), if_pos (by linarith)]
    ring

theorem zoomSize_eq {s t : ℕ} {fac : ℚ} (h : |s * fac - t| < 1 / 2) : zoomSize s fac = t := by
  unfold zoomSize
  rw [pyRound_near _ (t : ℤ) (by exact_mod_cast h)]
  simp

/-- A sample of a line is a mean of two samples. -/
theorem zoomLine_mean {s o i : ℕ} (hs : 0 < s) (hi : i < o) : ∃ (a b : ℕ) (w : ℚ), a < s ∧ b < s ∧ 0 ≤ w ∧ w ≤ 1 ∧
    (1 - w) * a + w * b = Spec.place s o i ∧ ∀ f, zoomLine s o f i = (1 - w) * f a + w * f b := by
  have hc0 : 0 ≤ zoomCoord s o i := by
    unfold zoomCoord
    split_ifs with h
    · positivity
    · have h1 : (1 : ℚ) ≤ s := by exact_mod_cast hs
      have h2 : (1 : ℚ) ≤ o := by exact_mod_cast (show 1 ≤ o by omega)
      exact mul_nonneg (by positivity) (div_nonneg (by linarith) (by linarith))
  have hcs : zoomCoord s o i ≤ s - 1 := by
    have h1 : (1 : ℚ) ≤ s := by exact_mod_cast hs
    unfold zoomCoord
    split_ifs with h
    · have : i = 0 := by omega
      subst this
      simp only [Nat.cast_zero]
      linarith
    · have h2 : (0 : ℚ) < (o : ℚ) - 1 := by
        have : (2 : ℚ) ≤ o := by exact_mod_cast (show 2 ≤ o by omega)
        linarith
      have h3 : (i : ℚ) ≤ (o : ℚ) - 1 := by
        have : (i : ℚ) + 1 ≤ o := by exact_mod_cast hi
        linarith
      rw [← mul_div_assoc, div_le_iff₀ h2, mul_comm]
      exact mul_le_mul_of_nonneg_left h3 (by linarith)
  have hplace : zoomCoord s o i = Spec.place s o i := by
    unfold zoomCoord Spec.place
    by_cases h : o = 1
    · rw [if_pos h, if_pos (by omega)]
      have : i = 0 := by omega
      simp [this]
    · rw [if_neg h, if_neg (by omega), mul_div_assoc]
  have hf0 : 0 ≤ ⌊zoomCoord s o i⌋ := Int.floor_nonneg.mpr hc0
  obtain ⟨lo, hlo⟩ : ∃ lo : ℕ, ⌊zoomCoord s o i⌋ = lo := ⟨⌊zoomCoord s o i⌋.toNat, (Int.toNat_of_nonneg hf0).symm⟩
  have h1 : (lo : ℚ) ≤ zoomCoord s o i := by
    have := Int.floor_le (zoomCoord s o i)
    rw [hlo] at this
    exact_mod_cast this
  have h2 : zoomCoord s o i < lo + 1 := by
    have := Int.lt_floor_add_one (zoomCoord s o i)
    rw [hlo] at this
    exact_mod_cast this
  have hlos : lo < s := by
    have : (lo : ℚ) ≤ s - 1 := le_trans h1 hcs
    have : (lo : ℚ) + 1 ≤ s := by linarith
    exact_mod_cast this
  refine ⟨min lo (s - 1), min (lo + 1) (s - 1), zoomCoord s o i - lo, by omega, by omega, by linarith, by linarith, ?_, fun f => ?_⟩
  · rw [← hplace]
    have e1 : min lo (s - 1) = lo := by omega
    rw [e1]
    rcases Nat.lt_or_ge (lo + 1) s with h | h
    · have e2 : min (lo + 1) (s - 1) = lo + 1 := by omega
      rw [e2]
      push_cast
      ring
    · have e2 : min (lo + 1) (s - 1) = lo := by omega
      have e3 : zoomCoord s o i = lo := by
        have : (s : ℚ) - 1 ≤ lo := by
          have : (s : ℚ) ≤ lo + 1 := by exact_mod_cast h
          linarith
        linarith
      rw [e2, e3]
      ring
  · unfold zoomLine
    simp only [hlo, Int.toNat_natCast]

theorem upsample_val {fac : ℚ × ℚ × ℚ} {t : ℕ × ℕ × ℕ} {g : RhoGrid} (hq : Spec.Quotients g.shape t fac) {i j k : ℕ} (h : Spec.InGrid t i j k) :
    (upsample fac t g).val i j k = max 0 (min 1 (zoomLine g.shape.1 t.1 (fun a => zoomLine g.shape.2.1 t.2.1
      (fun b => zoomLine g.shape.2.2 t.2.2 (fun c => g.val a b c) k) j) i)) := by
  obtain ⟨h1, h2, h3⟩ := hq
  obtain ⟨i1, i2, i3⟩ := h
  simp only [upsample, zoomGrid, zoomSize_eq h1, zoomSize_eq h2, zoomSize_eq h3, min_self, cropPad]
  rw [Nat.min_eq_left (by omega), Nat.min_eq_left (by omega), Nat.min_eq_left (by omega)]

/-- A value of the finer grid is a mean of values of the coarser one. -/
theorem upsample_mean {fac : ℚ × ℚ × ℚ} {t : ℕ × ℕ × ℕ} {s : ℕ × ℕ × ℕ} (hs : Spec.NonemptyGrid s) (hq : Spec.Quotients s t fac)
    {i j k : ℕ} (h : Spec.InGrid t i j k) :
    ∃ (a1 b1 a2 b2 a3 b3 : ℕ) (u v w : ℚ), a1 < s.1 ∧ b1 < s.1 ∧ a2 < s.2.1 ∧ b2 < s.2.1 ∧ a3 < s.2.2 ∧ b3 < s.2.2 ∧
      (0 ≤ u ∧ u ≤ 1) ∧ (0 ≤ v ∧ v ≤ 1) ∧ (0 ≤ w ∧ w ≤ 1) ∧ (1 - u) * a1 + u * b1 = Spec.place s.1 t.1 i ∧
      (1 - v) * a2 + v * b2 = Spec.place s.2.1 t.2.1 j ∧ (1 - w) * a3 + w * b3 = Spec.place s.2.2 t.2.2 k ∧
      ∀ val : ℕ → ℕ → ℕ → ℚ, (upsample fac t ⟨s, val⟩).val i j k = max 0 (min 1
        ((1 - u) * ((1 - v) * ((1 - w) * val a1 a2 a3 + w * val a1 a2 b3) + v * ((1 - w) * val a1 b2 a3 + w * val a1 b2 b3)) +
          u * ((1 - v) * ((1 - w) * val b1 a2 a3 + w * val b1 a2 b3) + v * ((1 - w) * val b1 b2 a3 + w * val b1 b2 b3)))) := by
  obtain ⟨a1, b1, u, p1, p2, p3, p4, p5, p6⟩ := zoomLine_mean hs.1 h.1
  obtain ⟨a2, b2, v, q1, q2, q3, q4, q5, q6⟩ := zoomLine_mean hs.2.1 h.2.1
  obtain ⟨a3, b3, w, r1, r2, r3, r4, r5, r6⟩ := zoomLine_mean hs.2.2 h.2.2
  refine ⟨a1, b1, a2, b2, a3, b3, u, v, w, p1, p2, q1, q2, r1, r2, ⟨p3, p4⟩, ⟨q3, q4⟩, ⟨r3, r4⟩, p5, q5, r5, fun val => ?_⟩
  rw [upsample_val (g := ⟨s, val⟩) hq h]
  simp only [p6, q6, r6]

/-- C146: the seed has the shape of the finer level, with densities between the least and the greatest of the coarser level. -/
theorem C146_shape_and_range (fac : ℚ × ℚ × ℚ) (t s : ℕ × ℕ × ℕ) (val : ℕ → ℕ → ℕ → ℚ) (hs : Spec.NonemptyGrid s)
    (hq : Spec.Quotients s t fac) (lo hi : ℚ) (h0 : 0 ≤ lo) (h1 : hi ≤ 1) (hr : ∀ i j k, Spec.InGrid s i j k → lo ≤ val i j k ∧ val i j k ≤ hi) :
    (upsample fac t ⟨s, val⟩).shape = t ∧ ∀ i j k, Spec.InGrid t i j k →
      lo ≤ (upsample fac t ⟨s, val⟩).val i j k ∧ (upsample fac t ⟨s, val⟩).val i j k ≤ hi := by
  refine ⟨rfl, fun i j k h => ?_⟩
  obtain ⟨a1, b1, a2, b2, a3, b3, u, v, w, m1, m2, m3, m4, m5, m6, hu, hv, hw, -, -, -, heq⟩ := upsample_mean hs hq h
  rw [heq val]
  have mean : ∀ (x y z : ℚ), 0 ≤ z ∧ z ≤ 1 → lo ≤ x ∧ x ≤ hi → lo ≤ y ∧ y ≤ hi → lo ≤ (1 - z) * x + z * y ∧ (1 - z) * x + z * y ≤ hi := by
    intro x y z hz hx hy
    constructor
    · nlinarith [mul_nonneg hz.1 (sub_nonneg.mpr hy.1), mul_nonneg (sub_nonneg.mpr hz.2) (sub_nonneg.mpr hx.1)]
    · nlinarith [mul_nonneg hz.1 (sub_nonneg.mpr hy.2), mul_nonneg (sub_nonneg.mpr hz.2) (sub_nonneg.mpr hx.2)]
  have hm := mean _ _ u hu
    (mean _ _ v hv (mean _ _ w hw (hr a1 a2 a3 ⟨m1, m3, m5⟩) (hr a1 a2 b3 ⟨m1, m3, m6⟩)) (mean _ _ w hw (hr a1 b2 a3 ⟨m1, m4, m5⟩) (hr a1 b2 b3 ⟨m1, m4, m6⟩)))
    (mean _ _ v hv (mean _ _ w hw (hr b1 a2 a3 ⟨m2, m3, m5⟩) (hr b1 a2 b3 ⟨m2, m3, m6⟩)) (mean _ _ w hw (hr b1 b2 a3 ⟨m2, m4, m5⟩) (hr b1 b2 b3 ⟨m2, m4, m6⟩)))
  rw [min_eq_right (hm.2.trans h1), max_eq_right (h0.trans hm.1)]
  exact hm

/-- C146: whatever the coarser level, densities of the seed lie between nothing and solid. -/
theorem C146_clipped (fac : ℚ × ℚ × ℚ) (t : ℕ × ℕ × ℕ) (g : RhoGrid) :
    (upsample fac t g).shape = t ∧ ∀ i j k, 0 ≤ (upsample fac t g).val i j k ∧ (upsample fac t g).val i j k ≤ 1 :=
  ⟨rfl, fun _ _ _ => ⟨le_max_left _ _, max_le zero_le_one (min_le_left _ _)⟩⟩

/-- C146: a density that is affine along the axes is continued exactly, with the first and last cells of both grids on top of each
other; in particular a uniform density stays as it is. -/
theorem C146_affine (fac : ℚ × ℚ × ℚ) (t s : ℕ × ℕ × ℕ) (hs : Spec.NonemptyGrid s) (hq : Spec.Quotients s t fac) (c x y z : ℚ)
    (i j k : ℕ) (h : Spec.InGrid t i j k) :
    (upsample fac t ⟨s, fun i j k => c + x * i + y * j + z * k⟩).val i j k =
      max 0 (min 1 (c + x * Spec.place s.1 t.1 i + y * Spec.place s.2.1 t.2.1 j + z * Spec.place s.2.2 t.2.2 k)) := by
  obtain ⟨a1, b1, a2, b2, a3, b3, u, v, w, -, -, -, -, -, -, -, -, -, e1, e2, e3, heq⟩ := upsample_mean hs hq h
  rw [heq, ← e1, ← e2, ← e3]
  congr 2
  ring

/-- C146: more material on the coarser level never gives less on the finer one. -/
theorem C146_monotone (fac : ℚ × ℚ × ℚ) (t s : ℕ × ℕ × ℕ) (hs : Spec.NonemptyGrid s) (hq : Spec.Quotients s t fac)
    (val val' : ℕ → ℕ → ℕ → ℚ) (hle : ∀ i j k, Spec.InGrid s i j k → val i j k ≤ val' i j k) (i j k : ℕ) (h : Spec.InGrid t i j k) :
    (upsample fac t ⟨s, val⟩).val i j k ≤ (upsample fac t ⟨s, val'⟩).val i j k := by
  obtain ⟨a1, b1, a2, b2, a3, b3, u, v, w, m1, m2, m3, m4, m5, m6, hu, hv, hw, -, -, -, heq⟩ := upsample_mean hs hq h
  rw [heq, heq]
  have mono : ∀ (x x' y y' z : ℚ), 0 ≤ z ∧ z ≤ 1 → x ≤ x' → y ≤ y' → (1 - z) * x + z * y ≤ (1 - z) * x' + z * y' := by
    intro x x' y y' z hz hx hy
    exact add_le_add (mul_le_mul_of_nonneg_left hx (sub_nonneg.mpr hz.2)) (mul_le_mul_of_nonneg_left hy hz.1)
  refine max_le_max le_rfl (min_le_min le_rfl ?_)
  exact mono _ _ _ _ _ hu
    (mono _ _ _ _ _ hv (mono _ _ _ _ _ hw (hle _ _ _ ⟨m1, m3, m5⟩) (hle _ _ _ ⟨m1, m3, m6⟩)) (mono _ _ _ _ _ hw (hle _ _ _ ⟨m1, m4, m5⟩) (hle _ _ _ ⟨m1, m4, m6⟩)))
    (mono _ _ _ _ _ hv (mono _ _ _ _ _ hw (hle _ _ _ ⟨m2, m3, m5⟩) (hle _ _ _ ⟨m2, m3, m6⟩)) (mono _ _ _ _ _ hw (hle _ _ _ ⟨m2, m4, m5⟩) (hle _ _ _ ⟨m2, m4, m6⟩)))

/-- C146: a grid of the same shape is kept. -/
theorem C146_same_shape (fac : ℚ × ℚ × ℚ) (s : ℕ × ℕ × ℕ) (hs : Spec.NonemptyGrid s) (hq : Spec.Quotients s s fac)
    (val : ℕ → ℕ → ℕ → ℚ) (h01 : ∀ i j k, Spec.InGrid s i j k → 0 ≤ val i j k ∧ val i j k ≤ 1) (i j k : ℕ) (h : Spec.InGrid s i j k) :
    (upsample fac s ⟨s, val⟩).val i j k = val i j k := by
  have line : ∀ (n m : ℕ) (f : ℕ → ℚ), 0 < n → m < n → zoomLine n n f m = f m := by
    intro n m f hn hm
    have hc : zoomCoord n n m = m := by
      unfold zoomCoord
      split_ifs with h1
      · rfl
      · have : (0 : ℚ) < (n : ℚ) - 1 := by
          have : (2 : ℚ) ≤ n := by exact_mod_cast (show 2 ≤ n by omega)
          linarith
        rw [div_self this.ne', mul_one]
    unfold zoomLine
    simp only [hc, Int.floor_natCast, Int.toNat_natCast, sub_self, sub_zero, one_mul, zero_mul, add_zero]
    rw [Nat.min_eq_left (by omega)]
  rw [upsample_val (g := ⟨s, val⟩) hq h]
  simp only
  rw [line _ _ _ hs.1 h.1, line _ _ _ hs.2.1 h.2.1, line _ _ _ hs.2.2 h.2.2, min_eq_right (h01 i j k h).2, max_eq_right (h01 i j k h).1]

/-- Quotients of a doubled grid. -/
example : Spec.NonemptyGrid (8, 8, 8) ∧ Spec.Quotients (8, 8, 8) (16, 16, 16) (2, 2, 2) := by
  refine ⟨⟨by norm_num, by norm_num, by norm_num⟩, ?_, ?_, ?_⟩ <;> norm_num

/-- C146 fails for the place of the material: cells are where their centres are, so a density that depends on the place alone is not
continued. The density `x` over a bar of unit length comes out as `1 / (2 s)` in the first of the `t` cells, whose centre is
`1 / (2 t)`. -/
theorem C146_moves_material (s t : ℕ) (hs : 0 < s) (hst : s < t) :
    (upsample ((t : ℚ) / s, 1, 1) (t, 1, 1) ⟨(s, 1, 1), fun i _ _ => ((i : ℚ) + 1 / 2) / s⟩).val 0 0 0 = (1 / 2) / s ∧
      ((0 : ℚ) + 1 / 2) / t < (1 / 2) / s := by
  have hs' : (0 : ℚ) < s := by exact_mod_cast hs
  have ht' : (0 : ℚ) < t := by exact_mod_cast (hs.trans hst)
  have hst' : (s : ℚ) < t := by exact_mod_cast hst
  have hq : Spec.Quotients (s, 1, 1) (t, 1, 1) ((t : ℚ) / s, 1, 1) := by
    refine ⟨?_, ?_, ?_⟩
    · simp only
      rw [mul_div_cancel₀ _ hs'.ne', sub_self, abs_zero]
      norm_num
    · norm_num
    · norm_num
  constructor
  · have h1 := C146_affine _ (t, 1, 1) (s, 1, 1) ⟨hs, Nat.one_pos, Nat.one_pos⟩ hq ((1 / 2) / s) (1 / s) 0 0 0 0 0
      ⟨by simp only; omega, Nat.one_pos, Nat.one_pos⟩
    have hf : (fun i _ _ : ℕ => ((i : ℚ) + 1 / 2) / s) = fun i j k : ℕ => (1 / 2) / (s : ℚ) + 1 / s * i + 0 * j + 0 * k := by
      funext i j k
      field_simp
      ring
    rw [hf, h1]
    have hp : Spec.place s t 0 = 0 := by simp [Spec.place]
    have hle : (1 / 2 : ℚ) / s ≤ 1 := by
      rw [div_le_one hs']
      have : (1 : ℚ) ≤ s := by exact_mod_cast hs
      linarith
    simp only [hp, mul_zero, add_zero, zero_mul]
    rw [min_eq_right hle, max_eq_right (by positivity)]
  · rw [zero_add]
    exact div_lt_div_of_pos_left (by norm_num) hs' hst'

/-- C146 fails for the volume: of three cells one solid, a third; of the six cells made from them, three tenths. -/
theorem C146_changes_volume :
    ((List.range 3).map fun i => (if i = 0 then 1 else 0 : ℚ)).sum / 3 ≠
      ((List.range 6).map fun i => (upsample (2, 1, 1) (6, 1, 1) ⟨(3, 1, 1), fun i _ _ => if i = 0 then 1 else 0⟩).val i 0 0).sum / 6 := by
  decide +kernel

/-- C146: should the interpolation come out a sample short along an axis, whatever the quotients, the last sample is repeated to reach
the shape asked for; should it come out long, the samples beyond are dropped. -/
theorem C146_short_is_padded (fac : ℚ × ℚ × ℚ) (t : ℕ × ℕ × ℕ) (g : RhoGrid) (i j k : ℕ) (h : Spec.InGrid t i j k) :
    (upsample fac t g).val i j k =
      max 0 (min 1 ((zoomGrid (zoomSize g.shape.1 fac.1, zoomSize g.shape.2.1 fac.2.1, zoomSize g.shape.2.2 fac.2.2) g).val
        (if i < zoomSize g.shape.1 fac.1 then i else zoomSize g.shape.1 fac.1 - 1)
        (if j < zoomSize g.shape.2.1 fac.2.1 then j else zoomSize g.shape.2.1 fac.2.1 - 1)
        (if k < zoomSize g.shape.2.2 fac.2.2 then k else zoomSize g.shape.2.2 fac.2.2 - 1))) := by
  obtain ⟨h1, h2, h3⟩ := h
  have key : ∀ o t i : ℕ, i < t → cropPad (min o t) i = if i < o then i else o - 1 := by
    intro o t i hi
    unfold cropPad
    split_ifs <;> omega
  unfold upsample
  simp only
  rw [key _ _ _ h1, key _ _ _ h2, key _ _ _ h3]

/-- Three samples where four are asked for: the last is repeated. -/
example : (List.range 4).map (fun i => (upsample (1, 1, 1) (4, 1, 1) ⟨(3, 1, 1), fun i _ _ => (i : ℚ) / 4⟩).val i 0 0) =
    [0, 1 / 4, 1 / 2, 1 / 2] := by decide +kernel

end Verif.Props
