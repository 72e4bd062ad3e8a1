import Verif.Props.WellPosed
import Verif.Props.Geometry
import Verif.Model.ElementData
import Mathlib.Tactic.FieldSimp

/-!
# Rigidity of fully integrated rectangles and bricks (C160)

`QUAD4` and `HEX8` cells of a box mesh, in the node order of feax, with the reference gradients of `/repo/feax/basis.py:191-196` divided by
the edge lengths (`/repo/feax/fe.py:96-129` on an axis-parallel cell): a displacement without strain at two points per direction
is rigid. One point per direction is not enough.
-/

namespace Verif.Props

open Verif.Model
open Spec.Amg (Skew)
open Spec.WellPosed

namespace Spec.WellPosed
variable {K : Type*} [Field K]

/-- The reference corners of `QUAD4` and `HEX8`, in the order of feax. -/
def refCorner (dim a k : ℕ) : K :=
  let l : List (List ℕ) := if dim = 2 then [[0, 0], [1, 0], [1, 1], [0, 1]]
    else [[0, 0, 0], [1, 0, 0], [1, 1, 0], [0, 1, 0], [0, 0, 1], [1, 0, 1], [1, 1, 1], [0, 1, 1]]
  ((l.getD a []).getD k 0 : ℕ)

/-- The nodes are the corners of an axis-parallel box with lower corner `o` and edges `h`. -/
def Box (dim : ℕ) (X : ℕ → ℕ → K) (nodes : List ℕ) (o h : ℕ → K) : Prop :=
  nodes.length = 2 ^ dim ∧ ∀ a < 2 ^ dim, ∀ k < dim, X (nodes.getD a 0) k = o k + h k * refCorner dim a k

/-- The gradients of the shape functions of the box at the reference point `(x, y, z)`. -/
def BoxGrads (dim : ℕ) (h : ℕ → K) (x y z : K) (G : List (List K)) : Prop :=
  ∀ a < 2 ^ dim, ∀ k < dim, (G.getD a []).getD k 0 = (shapeGradAt (if dim = 2 then .QUAD4 else .HEX8) x y z k).getD a 0 / h k

end Spec.WellPosed

section field
variable {K : Type*} [Field K]

theorem two_zeros {p q g g' : K} (hg : g ≠ g') (h1 : p + q * g = 0) (h2 : p + q * g' = 0) : p = 0 ∧ q = 0 := by
  have hq : q * (g - g') = 0 := by linear_combination h1 - h2
  have hq0 : q = 0 := (mul_eq_zero.mp hq).resolve_right (sub_ne_zero.mpr hg)
  exact ⟨by rw [hq0] at h1; simpa using h1, hq0⟩

theorem four_zeros {p q r m g g' : K} (hg : g ≠ g') (h1 : p + q * g + (r + m * g) * g = 0) (h2 : p + q * g' + (r + m * g') * g = 0)
    (h3 : p + q * g + (r + m * g) * g' = 0) (h4 : p + q * g' + (r + m * g') * g' = 0) : p = 0 ∧ q = 0 ∧ r = 0 ∧ m = 0 := by
  obtain ⟨a1, a2⟩ := two_zeros hg h1 h3
  obtain ⟨b1, b2⟩ := two_zeros hg h2 h4
  obtain ⟨hp, hq⟩ := two_zeros hg a1 b1
  obtain ⟨hr, hm⟩ := two_zeros hg a2 b2
  exact ⟨hp, hq, hr, hm⟩

theorem quad_grads (x y z : K) : shapeGradAt .QUAD4 x y z 0 = [-(1 - y), 1 - y, y, -y] ∧ shapeGradAt .QUAD4 x y z 1 = [-(1 - x), -x, x, 1 - x] := by
  constructor <;> simp [shapeGradAt, shapeValuesAt, basixValues, EleType.reOrder]

theorem hex_grads (x y z : K) :
    shapeGradAt .HEX8 x y z 0 = [-((1 - y) * (1 - z)), (1 - y) * (1 - z), y * (1 - z), -(y * (1 - z)), -((1 - y) * z), (1 - y) * z, y * z, -(y * z)] ∧
    shapeGradAt .HEX8 x y z 1 = [-((1 - x) * (1 - z)), -(x * (1 - z)), x * (1 - z), (1 - x) * (1 - z), -((1 - x) * z), -(x * z), x * z, (1 - x) * z] ∧
    shapeGradAt .HEX8 x y z 2 = [-((1 - x) * (1 - y)), -(x * (1 - y)), -(x * y), -((1 - x) * y), (1 - x) * (1 - y), x * (1 - y), x * y, (1 - x) * y] := by
  refine ⟨?_, ?_, ?_⟩ <;> simp [shapeGradAt, shapeValuesAt, basixValues, EleType.reOrder] <;> ring_nf <;> simp

end field

section rigid
variable {K : Type*} [Field K]

theorem half_zero (hK : (2 : K) ≠ 0) {s h : K} (hh : h ≠ 0) (e : s / h + s / h = 0) : s = 0 := by
  have : (2 : K) * (s / h) = 0 := by linear_combination e
  exact (div_eq_zero_iff.mp ((mul_eq_zero.mp this).resolve_left hK)).resolve_right hh

/-- C160: a rectangle with two by two points is rigid. -/
theorem C160_rectangle (hK : (2 : K) ≠ 0) (fs : List Verif.Spec.Field) (X : ℕ → ℕ → K) (nodes : List ℕ) (o h : ℕ → K)
    (hbox : Box 2 X nodes o h) (hh : ∀ k < 2, h k ≠ 0) (pts : List (QPoint K)) (g g' : K) (hg : g ≠ g')
    (hp : ∀ x ∈ [g, g'], ∀ y ∈ [g, g'], ∃ q ∈ pts, ∃ z, BoxGrads 2 h x y z (Verif.Spec.fe q 0).grads) : RigidCell fs 2 X nodes pts := by
  intro w hw
  obtain ⟨hlen, hX⟩ := hbox
  have hlen4 : nodes.length = 4 := hlen
  set v : ℕ → ℕ → K := fun c a => w.getD (Verif.Spec.dofNumber fs 0 (nodes.getD a 0) c) 0 with hv
  have h0 := hh 0 (by omega)
  have h1 := hh 1 (by omega)
  have key : ∀ x ∈ [g, g'], ∀ y ∈ [g, g'],
      (v 0 1 - v 0 0) + (v 0 2 - v 0 3 - v 0 1 + v 0 0) * y = 0 ∧
      (v 1 3 - v 1 0) + (v 1 2 - v 1 1 - v 1 3 + v 1 0) * x = 0 ∧
      ((v 0 3 - v 0 0) + (v 0 2 - v 0 1 - v 0 3 + v 0 0) * x) / h 1 + ((v 1 1 - v 1 0) + (v 1 2 - v 1 3 - v 1 1 + v 1 0) * y) / h 0 = 0 := by
    intro x hx y hy
    obtain ⟨q, hq, z, hG⟩ := hp x hx y hy
    have hf : ∀ c, ∀ k < 2, Verif.Spec.fieldGrad fs w 0 nodes (Verif.Spec.fe q 0).grads c k =
        (∑ a ∈ Finset.range 4, v c a * (shapeGradAt .QUAD4 x y z k).getD a 0) / h k := by
      intro c k hk
      unfold Verif.Spec.fieldGrad
      rw [hlen4, Finset.sum_div]
      refine Finset.sum_congr rfl fun a ha => ?_
      rw [hG a (by simpa using ha) k hk, if_pos rfl, mul_div_assoc]
    obtain ⟨e0, e1⟩ := quad_grads x y z
    have t0 : ∀ c, ∑ a ∈ Finset.range 4, v c a * (shapeGradAt .QUAD4 x y z 0).getD a 0 = (v c 1 - v c 0) + (v c 2 - v c 3 - v c 1 + v c 0) * y := by
      intro c
      rw [e0]
      simp only [Finset.sum_range_succ, Finset.sum_range_zero, List.getD_cons_zero, List.getD_cons_succ]
      ring
    have t1 : ∀ c, ∑ a ∈ Finset.range 4, v c a * (shapeGradAt .QUAD4 x y z 1).getD a 0 = (v c 3 - v c 0) + (v c 2 - v c 1 - v c 3 + v c 0) * x := by
      intro c
      rw [e1]
      simp only [Finset.sum_range_succ, Finset.sum_range_zero, List.getD_cons_zero, List.getD_cons_succ]
      ring
    have s00 := hw q hq 0 (by omega) 0 (by omega)
    have s11 := hw q hq 1 (by omega) 1 (by omega)
    have s01 := hw q hq 0 (by omega) 1 (by omega)
    rw [hf 0 0 (by omega), t0] at s00
    rw [hf 1 1 (by omega), t1] at s11
    rw [hf 0 1 (by omega), hf 1 0 (by omega), t0, t1] at s01
    exact ⟨half_zero hK h0 s00, half_zero hK h1 s11, s01⟩
  have ha : g ∈ [g, g'] := List.mem_cons_self
  have hb : g' ∈ [g, g'] := List.mem_cons_of_mem _ List.mem_cons_self
  obtain ⟨x1, x2⟩ := two_zeros hg (key g ha g ha).1 (key g ha g' hb).1
  obtain ⟨y1, y2⟩ := two_zeros hg (key g ha g ha).2.1 (key g' hb g ha).2.1
  have hs := (key g ha g ha).2.2
  have m0 : v 0 2 - v 0 1 - v 0 3 + v 0 0 = 0 := by linear_combination x2
  have m1 : v 1 2 - v 1 3 - v 1 1 + v 1 0 = 0 := by linear_combination y2
  simp only [m0, m1, zero_mul, add_zero] at hs
  let A : ℕ → ℕ → K := fun c k => if c = 0 ∧ k = 1 then (v 0 3 - v 0 0) / h 1 else if c = 1 ∧ k = 0 then (v 1 1 - v 1 0) / h 0 else 0
  refine ⟨A, fun c => v c 0 - ∑ k ∈ Finset.range 2, A c k * o k, ?_, ?_⟩
  · intro c hc k hk
    interval_cases c <;> interval_cases k <;> simp [A]
    · linear_combination hs
    · linear_combination hs
  · intro n hn c hc
    obtain ⟨a, hal, rfl⟩ := List.mem_iff_getElem.mp hn
    have ha4 : a < 4 := by omega
    have hget : nodes[a] = nodes.getD a 0 := (List.getD_eq_getElem _ _ hal).symm
    have hx0 := hX a ha4 0 (by omega)
    have hx1 := hX a ha4 1 (by omega)
    rw [hget]
    show v c a = _
    unfold Verif.Spec.affine
    simp only [Finset.sum_range_succ, Finset.sum_range_zero, hx0, hx1, zero_add]
    have m00 : A 0 0 * h 0 = 0 := by simp [A]
    have m01 : A 0 1 * h 1 = v 0 3 - v 0 0 := by simp [A]; exact div_mul_cancel₀ _ h1
    have m10 : A 1 0 * h 0 = v 1 1 - v 1 0 := by simp [A]; exact div_mul_cancel₀ _ h0
    have m11 : A 1 1 * h 1 = 0 := by simp [A]
    clear_value A
    interval_cases a <;> interval_cases c <;> simp only [refCorner, if_true, List.getD_cons_zero, List.getD_cons_succ, Nat.cast_zero, Nat.cast_one, mul_zero, mul_one, add_zero]
    · ring
    · ring
    · linear_combination x1 - m00
    · linear_combination -m10
    · linear_combination x1 + x2 - m00 - m01
    · linear_combination y1 + y2 - m10 - m11
    · linear_combination -m01
    · linear_combination y1 - m11

/-- C160: a brick with two by two by two points is rigid. -/
theorem C160_brick (hK : (2 : K) ≠ 0) (fs : List Verif.Spec.Field) (X : ℕ → ℕ → K) (nodes : List ℕ) (o h : ℕ → K)
    (hbox : Box 3 X nodes o h) (hh : ∀ k < 3, h k ≠ 0) (pts : List (QPoint K)) (g g' : K) (hg : g ≠ g')
    (hp : ∀ x ∈ [g, g'], ∀ y ∈ [g, g'], ∀ z ∈ [g, g'], ∃ q ∈ pts, BoxGrads 3 h x y z (Verif.Spec.fe q 0).grads) :
    RigidCell fs 3 X nodes pts := by
  intro w hw
  obtain ⟨hlen, hX⟩ := hbox
  have hlen8 : nodes.length = 8 := hlen
  set v : ℕ → ℕ → K := fun c a => w.getD (Verif.Spec.dofNumber fs 0 (nodes.getD a 0) c) 0 with hv
  have h0 := hh 0 (by omega)
  have h1 := hh 1 (by omega)
  have h2 := hh 2 (by omega)
  -- derivatives along the axes
  let D0 : ℕ → K → K → K := fun c y z => (v c 1 - v c 0) * ((1 - y) * (1 - z)) + (v c 2 - v c 3) * (y * (1 - z)) +
    (v c 5 - v c 4) * ((1 - y) * z) + (v c 6 - v c 7) * (y * z)
  let D1 : ℕ → K → K → K := fun c x z => (v c 3 - v c 0) * ((1 - x) * (1 - z)) + (v c 2 - v c 1) * (x * (1 - z)) +
    (v c 7 - v c 4) * ((1 - x) * z) + (v c 6 - v c 5) * (x * z)
  let D2 : ℕ → K → K → K := fun c x y => (v c 4 - v c 0) * ((1 - x) * (1 - y)) + (v c 5 - v c 1) * (x * (1 - y)) +
    (v c 7 - v c 3) * ((1 - x) * y) + (v c 6 - v c 2) * (x * y)
  have key : ∀ x ∈ [g, g'], ∀ y ∈ [g, g'], ∀ z ∈ [g, g'], D0 0 y z = 0 ∧ D1 1 x z = 0 ∧ D2 2 x y = 0 ∧
      D1 0 x z / h 1 + D0 1 y z / h 0 = 0 ∧ D2 0 x y / h 2 + D0 2 y z / h 0 = 0 ∧ D2 1 x y / h 2 + D1 2 x z / h 1 = 0 := by
    intro x hx y hy z hz
    obtain ⟨q, hq, hG⟩ := hp x hx y hy z hz
    have hf : ∀ c, ∀ k < 3, Verif.Spec.fieldGrad fs w 0 nodes (Verif.Spec.fe q 0).grads c k =
        (∑ a ∈ Finset.range 8, v c a * (shapeGradAt .HEX8 x y z k).getD a 0) / h k := by
      intro c k hk
      unfold Verif.Spec.fieldGrad
      rw [hlen8, Finset.sum_div]
      refine Finset.sum_congr rfl fun a ha => ?_
      rw [hG a (by simpa using ha) k hk, if_neg (by omega), mul_div_assoc]
    obtain ⟨e0, e1, e2⟩ := hex_grads x y z
    have t0 : ∀ c, ∑ a ∈ Finset.range 8, v c a * (shapeGradAt .HEX8 x y z 0).getD a 0 = D0 c y z := by
      intro c
      rw [e0]
      simp only [Finset.sum_range_succ, Finset.sum_range_zero, List.getD_cons_zero, List.getD_cons_succ, D0]
      ring
    have t1 : ∀ c, ∑ a ∈ Finset.range 8, v c a * (shapeGradAt .HEX8 x y z 1).getD a 0 = D1 c x z := by
      intro c
      rw [e1]
      simp only [Finset.sum_range_succ, Finset.sum_range_zero, List.getD_cons_zero, List.getD_cons_succ, D1]
      ring
    have t2 : ∀ c, ∑ a ∈ Finset.range 8, v c a * (shapeGradAt .HEX8 x y z 2).getD a 0 = D2 c x y := by
      intro c
      rw [e2]
      simp only [Finset.sum_range_succ, Finset.sum_range_zero, List.getD_cons_zero, List.getD_cons_succ, D2]
      ring
    have s00 := hw q hq 0 (by omega) 0 (by omega)
    have s11 := hw q hq 1 (by omega) 1 (by omega)
    have s22 := hw q hq 2 (by omega) 2 (by omega)
    have s01 := hw q hq 0 (by omega) 1 (by omega)
    have s02 := hw q hq 0 (by omega) 2 (by omega)
    have s12 := hw q hq 1 (by omega) 2 (by omega)
    rw [hf 0 0 (by omega), t0] at s00
    rw [hf 1 1 (by omega), t1] at s11
    rw [hf 2 2 (by omega), t2] at s22
    rw [hf 0 1 (by omega), hf 1 0 (by omega), t0, t1] at s01
    rw [hf 0 2 (by omega), hf 2 0 (by omega), t0, t2] at s02
    rw [hf 1 2 (by omega), hf 2 1 (by omega), t1, t2] at s12
    exact ⟨half_zero hK h0 s00, half_zero hK h1 s11, half_zero hK h2 s22, s01, s02, s12⟩
  have ha : g ∈ [g, g'] := List.mem_cons_self
  have hb : g' ∈ [g, g'] := List.mem_cons_of_mem _ List.mem_cons_self
  -- a function of the form of `D` that vanishes at the four points has no coefficients
  have four : ∀ α β γ δ : K, (∀ s ∈ [g, g'], ∀ t ∈ [g, g'], α * ((1 - s) * (1 - t)) + β * (s * (1 - t)) + γ * ((1 - s) * t) + δ * (s * t) = 0) →
      α = 0 ∧ β = 0 ∧ γ = 0 ∧ δ = 0 := by
    intro α β γ δ hz
    obtain ⟨p, q, r, m⟩ := four_zeros (p := α) (q := β - α) (r := γ - α) (m := α - β - γ + δ) hg
      (by linear_combination hz g ha g ha) (by linear_combination hz g' hb g ha) (by linear_combination hz g ha g' hb)
      (by linear_combination hz g' hb g' hb)
    refine ⟨p, by linear_combination q + p, by linear_combination r + p, by linear_combination m + q + r + p⟩
  obtain ⟨a1, a2, a3, a4⟩ := four _ _ _ _ fun s hs t ht => (key g ha s hs t ht).1
  obtain ⟨b1, b2, b3, b4⟩ := four _ _ _ _ fun s hs t ht => (key s hs g ha t ht).2.1
  obtain ⟨c1, c2, c3, c4⟩ := four _ _ _ _ fun s hs t ht => (key s hs t ht g ha).2.2.1
  have e1 : ∀ z ∈ [g, g'], ((v 0 3 - v 0 0) / h 1 + (v 1 1 - v 1 0) / h 0) +
      ((v 0 7 - v 0 4 - v 0 3 + v 0 0) / h 1 + (v 1 5 - v 1 4 - v 1 1 + v 1 0) / h 0) * z = 0 := by
    intro z hz
    have := (key g ha g ha z hz).2.2.2.1
    have d1 : D1 0 g z = (v 0 3 - v 0 0) * (1 - z) + (v 0 7 - v 0 4) * z := by
      simp only [D1]
      linear_combination (a2 - a1) * g * (1 - z) + (a4 - a3) * g * z
    have d0 : D0 1 g z = (v 1 1 - v 1 0) * (1 - z) + (v 1 5 - v 1 4) * z := by
      simp only [D0]
      linear_combination (b2 - b1) * g * (1 - z) + (b4 - b3) * g * z
    rw [d1, d0] at this
    linear_combination this
  have e2 : ∀ y ∈ [g, g'], ((v 0 4 - v 0 0) / h 2 + (v 2 1 - v 2 0) / h 0) +
      ((v 0 7 - v 0 4 - v 0 3 + v 0 0) / h 2 + (v 2 2 - v 2 3 - v 2 1 + v 2 0) / h 0) * y = 0 := by
    intro y hy
    have := (key g ha y hy g ha).2.2.2.2.1
    have d2 : D2 0 g y = (v 0 4 - v 0 0) * (1 - y) + (v 0 7 - v 0 3) * y := by
      simp only [D2]
      linear_combination (a3 - a1) * g * (1 - y) + (a4 - a2) * g * y
    have d0 : D0 2 y g = (v 2 1 - v 2 0) * (1 - y) + (v 2 2 - v 2 3) * y := by
      simp only [D0]
      linear_combination (c2 - c1) * g * (1 - y) + (c4 - c3) * g * y
    rw [d2, d0] at this
    linear_combination this
  have e3 : ∀ x ∈ [g, g'], ((v 1 4 - v 1 0) / h 2 + (v 2 3 - v 2 0) / h 1) +
      ((v 1 5 - v 1 4 - v 1 1 + v 1 0) / h 2 + (v 2 2 - v 2 3 - v 2 1 + v 2 0) / h 1) * x = 0 := by
    intro x hx
    have := (key x hx g ha g ha).2.2.2.2.2
    have d2 : D2 1 x g = (v 1 4 - v 1 0) * (1 - x) + (v 1 5 - v 1 1) * x := by
      simp only [D2]
      linear_combination (b3 - b1) * g * (1 - x) + (b4 - b2) * g * x
    have d1 : D1 2 x g = (v 2 3 - v 2 0) * (1 - x) + (v 2 2 - v 2 1) * x := by
      simp only [D1]
      linear_combination (c3 - c1) * g * (1 - x) + (c4 - c2) * g * x
    rw [d2, d1] at this
    linear_combination this
  obtain ⟨p1, q1⟩ := two_zeros hg (e1 g ha) (e1 g' hb)
  obtain ⟨p2, q2⟩ := two_zeros hg (e2 g ha) (e2 g' hb)
  obtain ⟨p3, q3⟩ := two_zeros hg (e3 g ha) (e3 g' hb)
  -- the twists vanish
  have tw0 : v 0 7 - v 0 4 - v 0 3 + v 0 0 = 0 := by
    have : (2 : K) * ((v 0 7 - v 0 4 - v 0 3 + v 0 0) / (h 1 * h 2)) = 0 := by
      field_simp at q1 q2 q3 ⊢
      apply mul_left_cancel₀ h0
      linear_combination q1 + q2 - q3
    exact (div_eq_zero_iff.mp ((mul_eq_zero.mp this).resolve_left hK)).resolve_right (mul_ne_zero h1 h2)
  have tw1 : v 1 5 - v 1 4 - v 1 1 + v 1 0 = 0 := by
    rw [tw0, zero_div, zero_add] at q1
    exact (div_eq_zero_iff.mp q1).resolve_right h0
  have tw2 : v 2 2 - v 2 3 - v 2 1 + v 2 0 = 0 := by
    rw [tw0, zero_div, zero_add] at q2
    exact (div_eq_zero_iff.mp q2).resolve_right h0
  let A : ℕ → ℕ → K := fun c k =>
    if c = 0 ∧ k = 1 then (v 0 3 - v 0 0) / h 1 else if c = 0 ∧ k = 2 then (v 0 4 - v 0 0) / h 2
    else if c = 1 ∧ k = 0 then (v 1 1 - v 1 0) / h 0 else if c = 1 ∧ k = 2 then (v 1 4 - v 1 0) / h 2
    else if c = 2 ∧ k = 0 then (v 2 1 - v 2 0) / h 0 else if c = 2 ∧ k = 1 then (v 2 3 - v 2 0) / h 1 else 0
  refine ⟨A, fun c => v c 0 - ∑ k ∈ Finset.range 3, A c k * o k, ?_, ?_⟩
  · intro c hc k hk
    interval_cases c <;> interval_cases k <;> simp [A] <;>
      first
      | linear_combination p1
      | linear_combination p2
      | linear_combination p3
  · intro n hn c hc
    obtain ⟨a, hal, rfl⟩ := List.mem_iff_getElem.mp hn
    have ha8 : a < 8 := by omega
    have hget : nodes[a] = nodes.getD a 0 := (List.getD_eq_getElem _ _ hal).symm
    have hx0 := hX a ha8 0 (by omega)
    have hx1 := hX a ha8 1 (by omega)
    have hx2 := hX a ha8 2 (by omega)
    rw [hget]
    show v c a = _
    unfold Verif.Spec.affine
    simp only [Finset.sum_range_succ, Finset.sum_range_zero, hx0, hx1, hx2, zero_add]
    have m00 : A 0 0 * h 0 = 0 := by simp [A]
    have m01 : A 0 1 * h 1 = v 0 3 - v 0 0 := by simp [A]; exact div_mul_cancel₀ _ h1
    have m02 : A 0 2 * h 2 = v 0 4 - v 0 0 := by simp [A]; exact div_mul_cancel₀ _ h2
    have m10 : A 1 0 * h 0 = v 1 1 - v 1 0 := by simp [A]; exact div_mul_cancel₀ _ h0
    have m11 : A 1 1 * h 1 = 0 := by simp [A]
    have m12 : A 1 2 * h 2 = v 1 4 - v 1 0 := by simp [A]; exact div_mul_cancel₀ _ h2
    have m20 : A 2 0 * h 0 = v 2 1 - v 2 0 := by simp [A]; exact div_mul_cancel₀ _ h0
    have m21 : A 2 1 * h 1 = v 2 3 - v 2 0 := by simp [A]; exact div_mul_cancel₀ _ h1
    have m22 : A 2 2 * h 2 = 0 := by simp [A]
    clear_value A
    interval_cases a <;> interval_cases c <;> simp only [refCorner, if_false, Nat.reduceEqDiff, List.getD_cons_zero, List.getD_cons_succ, Nat.cast_zero, Nat.cast_one, mul_zero, mul_one, add_zero]
    · ring
    · ring
    · ring
    · linear_combination a1 - m00
    · linear_combination -m10
    · linear_combination -m20
    · linear_combination a2 - m00 - m01
    · linear_combination b2 - m10 - m11
    · linear_combination tw2 - m20 - m21
    · linear_combination -m01
    · linear_combination b1 - m11
    · linear_combination -m21
    · linear_combination -m02
    · linear_combination -m12
    · linear_combination c1 - m22
    · linear_combination a3 - m00 - m02
    · linear_combination tw1 - m10 - m12
    · linear_combination c2 - m20 - m22
    · linear_combination a4 + tw0 - m00 - m01 - m02
    · linear_combination b4 + tw1 - m10 - m11 - m12
    · linear_combination c4 + tw2 - m20 - m21 - m22
    · linear_combination tw0 - m01 - m02
    · linear_combination b3 - m11 - m12
    · linear_combination c3 - m21 - m22

/-! ## The cells feax builds -/

/-- A box is an affine image of the reference cell. -/
theorem boxMap_affine [CharZero K] (e : EleType) (he : e = .QUAD4 ∨ e = .HEX8) (X : ℕ → ℕ → K) (nodes : List ℕ) (o h : ℕ → K)
    (hbox : Box e.dim X nodes o h) :
    AffineCell (refNodes K e) (coordsOf X nodes) (Matrix.diagonal fun i => h i) (fun i => o i) := by
  intro a i
  have hlen : e.reOrder.length = 2 ^ e.dim := by rcases he with rfl | rfl <;> rfl
  have := hbox.2 a (by rw [← hlen]; exact a.2) i i.2
  simp only [coordsOf, this, Matrix.diagonal_apply, ite_mul, zero_mul, Finset.sum_ite_eq, Finset.mem_univ, if_true]
  have hc : refCorner e.dim a i = refNodes K e a i := by
    rcases he with rfl | rfl <;> fin_cases a <;> fin_cases i <;>
      simp [refCorner, refNodes, nodeCoord, twiceNode, twiceNodes, EleType.dim]
  rw [hc]
  ring

/-- The gradients feax forms on a box are the reference gradients divided by the edges. -/
theorem box_points [CharZero K] (e : EleType) (he : e = .QUAD4 ∨ e = .HEX8) (X : ℕ → ℕ → K) (nodes : List ℕ) (o h : ℕ → K)
    (hbox : Box e.dim X nodes o h) (hh : ∀ k < e.dim, h k ≠ 0) {m : ℕ} (pts : Fin m → K × K × K) (w : Fin m → K) (q : Fin m) :
    BoxGrads e.dim h (pts q).1 (pts q).2.1 (pts q).2.2 ((e.refElem e.dim pts w).fePoint (coordsOf X nodes) q).grads := by
  have hcell := boxMap_affine e he X nodes o h hbox
  have hJ := jacobian_affine _ (refElem_consistent e _ pts w) _ _ (refElem_linear e pts w) _ _ hcell q
  have hinv : ((e.refElem e.dim pts w).jacobian (coordsOf X nodes) q)⁻¹ = Matrix.diagonal fun i : Fin e.dim => (h i)⁻¹ := by
    rw [hJ]
    refine Matrix.inv_eq_right_inv ?_
    rw [Matrix.diagonal_mul_diagonal, ← Matrix.diagonal_one]
    congr 1
    funext i
    exact mul_inv_cancel₀ (hh i i.2)
  intro a ha k hk
  have hlen : e.reOrder.length = 2 ^ e.dim := by rcases he with rfl | rfl <;> rfl
  have he' : (if e.dim = 2 then EleType.QUAD4 else .HEX8) = e := by rcases he with rfl | rfl <;> rfl
  have hget : (((e.refElem e.dim pts w).fePoint (coordsOf X nodes) q).grads.getD a []).getD k 0 =
      (e.refElem e.dim pts w).physGrads (coordsOf X nodes) q ⟨a, by omega⟩ ⟨k, hk⟩ := by
    have ha' : a < e.reOrder.length := by omega
    simp [RefElem.fePoint, List.getD_eq_getElem?_getD, ha', hk]
  rw [he', hget, RefElem.physGrads, hinv]
  simp only [Matrix.diagonal_apply, mul_ite, mul_zero, Finset.sum_ite_eq', Finset.mem_univ, if_true]
  rw [div_eq_mul_inv]
  rfl

/-- C160: the rectangles feax builds, with a product rule that has two points per direction. -/
theorem C160_rectangle_cell [CharZero K] (fs : List Verif.Spec.Field) (X : ℕ → ℕ → K) (nodes : List ℕ) (o h : ℕ → K)
    (hbox : Box 2 X nodes o h) (hh : ∀ k < 2, h k ≠ 0) {m : ℕ} (pts : Fin m → K × K × K) (w : Fin m → K) (iv : Fin m → List K)
    (g g' : K) (hg : g ≠ g') (hp : ∀ x ∈ [g, g'], ∀ y ∈ [g, g'], ∃ q, (pts q).1 = x ∧ (pts q).2.1 = y) :
    RigidCell fs 2 X nodes ((EleType.QUAD4.refElem 2 pts w).cellPoints (coordsOf X nodes) iv) := by
  refine C160_rectangle two_ne_zero fs X nodes o h hbox hh _ g g' hg fun x hx y hy => ?_
  obtain ⟨q, rfl, rfl⟩ := hp x hx y hy
  exact ⟨_, (List.mem_ofFn' _ _).mpr ⟨q, rfl⟩, _, box_points .QUAD4 (.inl rfl) X nodes o h hbox hh pts w q⟩

/-- C160: the bricks feax builds. -/
theorem C160_brick_cell [CharZero K] (fs : List Verif.Spec.Field) (X : ℕ → ℕ → K) (nodes : List ℕ) (o h : ℕ → K)
    (hbox : Box 3 X nodes o h) (hh : ∀ k < 3, h k ≠ 0) {m : ℕ} (pts : Fin m → K × K × K) (w : Fin m → K) (iv : Fin m → List K)
    (g g' : K) (hg : g ≠ g') (hp : ∀ x ∈ [g, g'], ∀ y ∈ [g, g'], ∀ z ∈ [g, g'], ∃ q, pts q = (x, y, z)) :
    RigidCell fs 3 X nodes ((EleType.HEX8.refElem 3 pts w).cellPoints (coordsOf X nodes) iv) := by
  refine C160_brick two_ne_zero fs X nodes o h hbox hh _ g g' hg fun x hx y hy z hz => ?_
  obtain ⟨q, hq⟩ := hp x hx y hy z hz
  refine ⟨_, (List.mem_ofFn' _ _).mpr ⟨q, rfl⟩, ?_⟩
  have := box_points .HEX8 (.inr rfl) X nodes o h hbox hh pts w q
  rw [hq] at this
  exact this

/-- C160: one point at the centre is not enough; the hourglass displacement has no strain there. -/
theorem C160_hourglass [CharZero K] (X : ℕ → ℕ → K) (o h : ℕ → K) (hbox : Box 2 X [0, 1, 2, 3] o h) (hh : ∀ k < 2, h k ≠ 0)
    {m : ℕ} (pts : Fin m → K × K × K) (w : Fin m → K) (iv : Fin m → List K) (hp : ∀ q, pts q = (1 / 2, 1 / 2, 0)) :
    ¬ RigidCell [⟨2, 4⟩] 2 X [0, 1, 2, 3] ((EleType.QUAD4.refElem 2 pts w).cellPoints (coordsOf X [0, 1, 2, 3]) iv) := by
  intro hr
  obtain ⟨A, b, hA, hv⟩ := hr [1, 0, -1, 0, 1, 0, -1, 0] (by
    intro q hq
    obtain ⟨q, rfl⟩ := (List.mem_ofFn' _ _).mp hq
    have hG : BoxGrads 2 h (pts q).1 (pts q).2.1 (pts q).2.2 _ := box_points .QUAD4 (.inl rfl) X [0, 1, 2, 3] o h hbox hh pts w q
    rw [hp q] at hG
    obtain ⟨e0, e1⟩ := quad_grads (1 / 2) (1 / 2) (0 : K)
    have hz : ∀ c < 2, ∀ k < 2, Verif.Spec.fieldGrad [⟨2, 4⟩] ([1, 0, -1, 0, 1, 0, -1, 0] : List K) 0 [0, 1, 2, 3]
        ((EleType.QUAD4.refElem 2 pts w).fePoint (coordsOf X [0, 1, 2, 3]) q).grads c k = 0 := by
      intro c hc k hk
      unfold Verif.Spec.fieldGrad
      have : ∀ a < 4, (((EleType.QUAD4.refElem 2 pts w).fePoint (coordsOf X [0, 1, 2, 3]) q).grads.getD a []).getD k 0 =
          (shapeGradAt .QUAD4 (1 / 2) (1 / 2) (0 : K) k).getD a 0 / h k := fun a ha => hG a ha k hk
      refine Eq.trans (Finset.sum_congr rfl fun a ha => congrArg (_ * ·) (this a (Finset.mem_range.mp ha))) ?_
      simp only [List.length_cons, List.length_nil, Finset.sum_range_succ, Finset.sum_range_zero]
      interval_cases c <;> interval_cases k <;> first
        | rw [e0]; simp [Verif.Spec.dofNumber]; try ring
        | rw [e1]; simp [Verif.Spec.dofNumber]; try ring
    intro c hc k hk
    show Verif.Spec.fieldGrad _ _ 0 _ ((EleType.QUAD4.refElem 2 pts w).fePoint (coordsOf X [0, 1, 2, 3]) q).grads c k +
      Verif.Spec.fieldGrad _ _ 0 _ ((EleType.QUAD4.refElem 2 pts w).fePoint (coordsOf X [0, 1, 2, 3]) q).grads k c = 0
    rw [hz c hc k hk, hz k hk c hc, add_zero])
  have a0 : A 0 0 = 0 := by
    have : (2 : K) * A 0 0 = 0 := by linear_combination hA 0 (by omega) 0 (by omega)
    exact (mul_eq_zero.mp this).resolve_left two_ne_zero
  have v0 := hv 0 (by decide) 0 (by omega)
  have v1 := hv 1 (by decide) 0 (by omega)
  have x0 := hbox.2 0 (by decide) 1 (by omega)
  have x1 := hbox.2 1 (by decide) 1 (by omega)
  simp [refCorner] at x0 x1
  simp [Verif.Spec.dofNumber, Verif.Spec.affine, Finset.sum_range_succ, a0, x0, x1] at v0 v1
  have : (2 : K) = 0 := by linear_combination v0 - v1
  exact two_ne_zero this

end rigid

section examples

/-- The unit square and the unit cube. -/
def exUnitX : ℕ → ℕ → ℚ := fun n k => refCorner 3 n k

example (iv : Fin 4 → List ℚ) : RigidCell [⟨2, 4⟩] 2 exUnitX [0, 1, 2, 3]
    ((EleType.QUAD4.refElem 2 (fun q => (if q.val % 2 = 0 then 1 / 4 else 3 / 4, if q.val / 2 = 0 then 1 / 4 else 3 / 4, 0)) fun _ => 1 / 4).cellPoints
      (coordsOf exUnitX [0, 1, 2, 3]) iv) := by
  refine C160_rectangle_cell _ exUnitX _ (fun _ => 0) (fun _ => 1) ⟨rfl, by decide +kernel⟩ (fun _ _ => one_ne_zero) _ _ iv (1 / 4) (3 / 4)
    (by norm_num) ?_
  decide +kernel

example (iv : Fin 8 → List ℚ) : RigidCell [⟨3, 8⟩] 3 exUnitX [0, 1, 2, 3, 4, 5, 6, 7]
    ((EleType.HEX8.refElem 3 (fun q => (if q.val % 2 = 0 then 1 / 4 else 3 / 4, if q.val / 2 % 2 = 0 then 1 / 4 else 3 / 4,
      if q.val / 4 = 0 then 1 / 4 else 3 / 4)) fun _ => 1 / 8).cellPoints (coordsOf exUnitX [0, 1, 2, 3, 4, 5, 6, 7]) iv) := by
  refine C160_brick_cell _ exUnitX _ (fun _ => 0) (fun _ => 1) ⟨rfl, by decide +kernel⟩ (fun _ _ => one_ne_zero) _ _ iv (1 / 4) (3 / 4)
    (by norm_num) ?_
  decide +kernel

example (iv : Fin 1 → List ℚ) := C160_hourglass exUnitX (fun _ => 0) (fun _ => 1) ⟨rfl, by decide +kernel⟩ (fun _ _ => one_ne_zero)
  (fun _ => (1 / 2, 1 / 2, 0)) (fun _ => 1) iv (fun _ => rfl)

end examples

end Verif.Props
