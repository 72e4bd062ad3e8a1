import Verif.Model.PeriodicBox
import Mathlib.Tactic.Linarith
import Mathlib.Data.Fintype.Basic
import Mathlib.Tactic.FinCases
import Mathlib.Tactic.NormNum
import Mathlib.Tactic.Ring

/-!
# Properties of the periodic adaptive box mesh (C138)
-/

namespace Verif.Props
open Verif.Model

section
variable {K : Type} [Field K] [LinearOrder K] [IsStrictOrderedRing K]

/-- `f` is the face of the box `[origin, origin + len]` on the given axis and side (`true`: the far one), with a bounding
box known up to `δ` (Open CASCADE pads it). -/
def IsBoxFace (δ : K) (origin len : Fin 3 → K) (k : Fin 3) (far : Bool) (f : BoxFace K) : Prop :=
  (∀ j, j ≠ k → |f.lo j - origin j| ≤ δ ∧ |f.hi j - (origin j + len j)| ≤ δ) ∧
  |f.lo k - (origin k + if far then len k else 0)| ≤ δ ∧ |f.hi k - (origin k + if far then len k else 0)| ≤ δ

theorem classify_boxFace (eps δ : K) (origin len : Fin 3 → K) (hδ : 2 * δ < eps) (hlen : ∀ j, eps + 2 * δ ≤ len j)
    (k : Fin 3) (far : Bool) (f : BoxFace K) (hf : IsBoxFace δ origin len k far f) :
    classifyFace eps origin len f = some (k, far) := by
  obtain ⟨hoth, hlo, hhi⟩ := hf
  have h0 : 0 ≤ δ := (abs_nonneg _).trans hlo
  have thin : |f.hi k - f.lo k| < eps := by
    rw [abs_le] at hlo hhi
    rw [abs_lt]
    constructor <;> linarith [hlo.1, hlo.2, hhi.1, hhi.2]
  have thick : ∀ j, j ≠ k → ¬ |f.hi j - f.lo j| < eps := by
    intro j hj
    obtain ⟨h1, h2⟩ := hoth j hj
    rw [abs_le] at h1 h2
    rw [not_lt]
    refine le_trans ?_ (le_abs_self _)
    linarith [hlen j, h1.1, h1.2, h2.1, h2.2]
  have side : (if |f.lo k - origin k| < eps then some (k, false)
      else if |f.lo k - (origin k + len k)| < eps then some (k, true) else none) = some (k, far) := by
    cases far with
    | false =>
      rw [if_pos]
      rw [if_neg (by simp), add_zero] at hlo
      linarith
    | true =>
      rw [if_pos rfl] at hlo
      rw [if_neg, if_pos]
      · linarith
      · rw [not_lt]
        refine le_trans ?_ (le_abs_self _)
        rw [abs_le] at hlo
        linarith [hlen k, hlo.1]
  unfold classifyFace
  simp only
  have hk : k = 0 ∨ k = 1 ∨ k = 2 := by clear * -; revert k; decide
  rcases hk with rfl | rfl | rfl
  · rw [if_pos thin]; exact side
  · rw [if_neg (thick 0 (by decide)), if_pos thin]; exact side
  · rw [if_neg (thick 0 (by decide)), if_neg (thick 1 (by decide)), if_pos thin]; exact side

/-- C138: with bounding boxes known to better than half the tolerance and all sides of the box well above it, each axis is
made periodic with the far face as the copy of the near one, in whatever order Gmsh lists the surfaces. -/
theorem C138_faces_paired (eps δ : K) (origin len : Fin 3 → K) (hδ : 2 * δ < eps) (hlen : ∀ j, eps + 2 * δ ≤ len j)
    (faces : List (BoxFace K)) (tagOf : Fin 3 → Bool → ℕ)
    (hall : ∀ f ∈ faces, ∃ k far, f.tag = tagOf k far ∧ IsBoxFace δ origin len k far f)
    (hex : ∀ k far, ∃ f ∈ faces, IsBoxFace δ origin len k far f) (k : Fin 3) :
    periodicPair eps origin len faces k = some (tagOf k true, tagOf k false) := by
  have key : ∀ far, faceUnder eps origin len faces (k, far) = some (tagOf k far) := by
    intro far
    unfold faceUnder
    have hne : (faces.filter fun f => decide (classifyFace eps origin len f = some (k, far))) ≠ [] := by
      obtain ⟨f, hf, hb⟩ := hex k far
      intro h
      have : f ∈ faces.filter fun f => decide (classifyFace eps origin len f = some (k, far)) :=
        List.mem_filter.mpr ⟨hf, by simp [classify_boxFace eps δ origin len hδ hlen k far f hb]⟩
      rw [h] at this
      cases this
    rw [List.getLast?_eq_some_getLast hne, Option.map_some]
    have hm := List.getLast_mem hne
    obtain ⟨h1, h2⟩ := List.mem_filter.mp hm
    obtain ⟨k', far', ht, hb⟩ := hall _ h1
    have hc := classify_boxFace eps δ origin len hδ hlen k' far' _ hb
    simp only [hc, decide_eq_true_eq, Option.some.injEq, Prod.mk.injEq] at h2
    rw [ht, h2.1, h2.2]
  unfold periodicPair
  rw [key true, key false]

omit [LinearOrder K] [IsStrictOrderedRing K] in
/-- C138: the map handed to Gmsh is the translation by the side length along the axis. -/
theorem C138_translation (len : Fin 3 → K) (k : Fin 3) (p : Fin 3 → K) (i : Fin 3) :
    applyAffine (periodicAffine len k) p i = p i + if i = k then len k else 0 := by
  fin_cases k <;> fin_cases i <;> simp [applyAffine, periodicAffine, List.replicate, List.set]

/-- C138 fails for small boxes: when the first side is below the tolerance (a micrometre cell in metres), no axis is made
periodic at all, without a message, even with exact bounding boxes. -/
theorem C138_small_box_not_periodic (eps : K) (origin len : Fin 3 → K) (h0 : 0 ≤ len 0) (hsmall : len 0 < eps)
    (faces : List (BoxFace K)) (hall : ∀ f ∈ faces, ∃ k far, IsBoxFace 0 origin len k far f) (k : Fin 3) :
    periodicPair eps origin len faces k = none := by
  have hcl : ∀ f ∈ faces, classifyFace eps origin len f = some (0, false) := by
    intro f hf
    obtain ⟨k', far, hoth, hlo, hhi⟩ := hall f hf
    have hx : (f.lo 0 = origin 0 ∨ f.lo 0 = origin 0 + len 0) ∧ (f.hi 0 = origin 0 ∨ f.hi 0 = origin 0 + len 0) ∧
        (f.lo 0 ≤ f.hi 0) := by
      by_cases hk : k' = 0
      · subst hk
        have e1 := sub_eq_zero.mp (abs_nonpos_iff.mp hlo)
        have e2 := sub_eq_zero.mp (abs_nonpos_iff.mp hhi)
        cases far
        · simp only [Bool.false_eq_true, if_false, add_zero] at e1 e2
          exact ⟨Or.inl e1, Or.inl e2, by rw [e1, e2]⟩
        · simp only [if_true] at e1 e2
          exact ⟨Or.inr e1, Or.inr e2, by rw [e1, e2]⟩
      · obtain ⟨h1, h2⟩ := hoth 0 (Ne.symm hk)
        have e1 := sub_eq_zero.mp (abs_nonpos_iff.mp h1)
        have e2 := sub_eq_zero.mp (abs_nonpos_iff.mp h2)
        exact ⟨Or.inl e1, Or.inr e2, by rw [e1, e2]; linarith⟩
    obtain ⟨a, b, c⟩ := hx
    have t : |f.hi 0 - f.lo 0| < eps := by
      rw [abs_of_nonneg (by linarith)]
      rcases a with a | a <;> rcases b with b | b <;> rw [a, b] <;> linarith
    have s : |f.lo 0 - origin 0| < eps := by
      rcases a with a | a <;> rw [a]
      · rw [sub_self, abs_zero]; linarith
      · rw [add_sub_cancel_left, abs_of_nonneg h0]; exact hsmall
    unfold classifyFace
    simp only
    rw [if_pos t, if_pos s]
  have hslave : faceUnder eps origin len faces (k, true) = none := by
    unfold faceUnder
    have : (faces.filter fun f => decide (classifyFace eps origin len f = some (k, true))) = [] := by
      rw [List.filter_eq_nil_iff]
      intro f hf
      rw [hcl f hf]
      simp
    rw [this]
    rfl
  unfold periodicPair
  rw [hslave]

example : applyAffine (periodicAffine ![(2 : ℚ), 3, 4] 1) ![1, 0, 1] 1 = 3 := by
  rw [C138_translation]; simp

end

/-- The six faces of a box, in some order. -/
def exBoxFaces (l : ℚ) : List (BoxFace ℚ) :=
  [⟨5, ![0, 0, 0], ![l, l, 0]⟩, ⟨1, ![0, 0, 0], ![0, l, l]⟩, ⟨2, ![l, 0, 0], ![l, l, l]⟩, ⟨6, ![0, 0, l], ![l, l, l]⟩,
   ⟨3, ![0, 0, 0], ![l, 0, l]⟩, ⟨4, ![0, l, 0], ![l, l, l]⟩]

/-- Their tags. -/
def exTags (k : Fin 3) (far : Bool) : ℕ := 2 * k.val + 1 + if far then 1 else 0

theorem exBoxFaces_ok (l : ℚ) : (∀ f ∈ exBoxFaces l, ∃ k far, f.tag = exTags k far ∧ IsBoxFace 0 0 (fun _ => l) k far f) ∧
    ∀ k far, ∃ f ∈ exBoxFaces l, IsBoxFace 0 0 (fun _ => l) k far f := by
  have h : ∀ k far, ∃ f ∈ exBoxFaces l, f.tag = exTags k far ∧ IsBoxFace 0 0 (fun _ => l) k far f := by
    intro k far
    fin_cases k <;> cases far
    · refine ⟨⟨1, ![0, 0, 0], ![0, l, l]⟩, by simp [exBoxFaces], rfl, ?_⟩
      simp [IsBoxFace, Fin.forall_fin_succ]
    · refine ⟨⟨2, ![l, 0, 0], ![l, l, l]⟩, by simp [exBoxFaces], rfl, ?_⟩
      simp [IsBoxFace, Fin.forall_fin_succ]
    · refine ⟨⟨3, ![0, 0, 0], ![l, 0, l]⟩, by simp [exBoxFaces], rfl, ?_⟩
      simp [IsBoxFace, Fin.forall_fin_succ]
    · refine ⟨⟨4, ![0, l, 0], ![l, l, l]⟩, by simp [exBoxFaces], rfl, ?_⟩
      simp [IsBoxFace, Fin.forall_fin_succ]
    · refine ⟨⟨5, ![0, 0, 0], ![l, l, 0]⟩, by simp [exBoxFaces], rfl, ?_⟩
      simp [IsBoxFace, Fin.forall_fin_succ]
    · refine ⟨⟨6, ![0, 0, l], ![l, l, l]⟩, by simp [exBoxFaces], rfl, ?_⟩
      simp [IsBoxFace, Fin.forall_fin_succ]
  refine ⟨?_, fun k far => (h k far).imp fun f hf => ⟨hf.1, hf.2.2⟩⟩
  intro f hf
  simp only [exBoxFaces, List.mem_cons, List.not_mem_nil, or_false] at hf
  rcases hf with rfl | rfl | rfl | rfl | rfl | rfl
  · exact ⟨2, false, rfl, by simp [IsBoxFace, Fin.forall_fin_succ]⟩
  · exact ⟨0, false, rfl, by simp [IsBoxFace, Fin.forall_fin_succ]⟩
  · exact ⟨0, true, rfl, by simp [IsBoxFace, Fin.forall_fin_succ]⟩
  · exact ⟨2, true, rfl, by simp [IsBoxFace, Fin.forall_fin_succ]⟩
  · exact ⟨1, false, rfl, by simp [IsBoxFace, Fin.forall_fin_succ]⟩
  · exact ⟨1, true, rfl, by simp [IsBoxFace, Fin.forall_fin_succ]⟩

example (k : Fin 3) : periodicPair (1 / 1000000) 0 (fun _ => 1) (exBoxFaces 1) k = some (exTags k true, exTags k false) :=
  C138_faces_paired (1 / 1000000) 0 0 (fun _ => 1) (by norm_num) (by intro; norm_num) (exBoxFaces 1) exTags
    (exBoxFaces_ok 1).1 (exBoxFaces_ok 1).2 k

example (k : Fin 3) : periodicPair (1 / 1000000) 0 (fun _ => 1 / 2000000) (exBoxFaces (1 / 2000000)) k = none :=
  C138_small_box_not_periodic (1 / 1000000) 0 (fun _ => 1 / 2000000) (by norm_num) (by norm_num) _
    (fun f hf => let ⟨k, far, _, h⟩ := (exBoxFaces_ok (1 / 2000000)).1 f hf; ⟨k, far, h⟩) k

end Verif.Props
