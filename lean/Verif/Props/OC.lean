import Mathlib.Tactic.Linarith
import Mathlib.Tactic.Ring
import Mathlib.Tactic.NormNum
import Mathlib.Tactic.FieldSimp
import Mathlib.Algebra.Order.Archimedean.Basic
import Mathlib.Algebra.Order.Field.Rat
import Mathlib.Data.List.GetD
import Verif.Model.OC

/-!
# C37, C38, C65, C66: the narrow-band optimisation driver
-/

namespace Verif.Props

open Verif.Model

/-! ## C37 -/

section OC
variable {K : Type*} [Field K] [LinearOrder K] [IsStrictOrderedRing K]

theorem oc_loop_step (a : OCArgs K) (n : ℕ) (l1 l2 : K) (x : List K) :
    a.loop n l1 l2 x = if (l2 - l1) / (l1 + l2 + a.eps) > a.tol then
      (match n with
      | 0 => none
      | n + 1 => if a.volume (a.xnew ((l1 + l2) / 2)) > a.target then a.loop n ((l1 + l2) / 2) l2 (a.xnew ((l1 + l2) / 2))
          else a.loop n l1 ((l1 + l2) / 2) (a.xnew ((l1 + l2) / 2)))
      else some (l1, l2, x) := by
  rw [OCArgs.loop.eq_def]
  rfl

/-- Induction over the bisection: an invariant kept by both branches holds of the result. -/
theorem oc_loop_induction (a : OCArgs K) (I : K → K → List K → Prop)
    (hup : ∀ l1 l2 x, I l1 l2 x → (l2 - l1) / (l1 + l2 + a.eps) > a.tol →
      a.volume (a.xnew ((l1 + l2) / 2)) > a.target → I ((l1 + l2) / 2) l2 (a.xnew ((l1 + l2) / 2)))
    (hdown : ∀ l1 l2 x, I l1 l2 x → (l2 - l1) / (l1 + l2 + a.eps) > a.tol →
      a.volume (a.xnew ((l1 + l2) / 2)) ≤ a.target → I l1 ((l1 + l2) / 2) (a.xnew ((l1 + l2) / 2))) :
    ∀ (n : ℕ) (l1 l2 : K) (x : List K) (r : K × K × List K), I l1 l2 x → a.loop n l1 l2 x = some r →
      I r.1 r.2.1 r.2.2 ∧ (r.2.1 - r.1) / (r.1 + r.2.1 + a.eps) ≤ a.tol := by
  intro n
  induction n with
  | zero =>
    intro l1 l2 x r hI h
    rw [oc_loop_step] at h
    by_cases hc : (l2 - l1) / (l1 + l2 + a.eps) > a.tol
    · rw [if_pos hc] at h; simp at h
    · rw [if_neg hc] at h
      simp only [Option.some.injEq] at h
      subst h
      exact ⟨hI, not_lt.1 hc⟩
  | succ n ih =>
    intro l1 l2 x r hI h
    rw [oc_loop_step] at h
    by_cases hc : (l2 - l1) / (l1 + l2 + a.eps) > a.tol
    · rw [if_pos hc] at h
      simp only at h
      by_cases hv : a.volume (a.xnew ((l1 + l2) / 2)) > a.target
      · rw [if_pos hv] at h
        exact ih _ _ _ _ (hup _ _ _ hI hc hv) h
      · rw [if_neg hv] at h
        exact ih _ _ _ _ (hdown _ _ _ hI hc (not_lt.1 hv)) h
    · rw [if_neg hc] at h
      simp only [Option.some.injEq] at h
      subst h
      exact ⟨hI, not_lt.1 hc⟩

omit [IsStrictOrderedRing K] in
theorem clip_mem (x lo hi : K) (h : lo ≤ hi) : lo ≤ clip x lo hi ∧ clip x lo hi ≤ hi := by
  unfold clip
  exact ⟨le_min (le_max_right _ _) h, min_le_right _ _⟩

theorem oc_entry_bounds (a : OCArgs K) (hx : a.xmin ≤ a.xmax) (hm : 0 ≤ a.move) (rho dc dv l : K) :
    (a.xmin ≤ a.entry rho dc dv l ∧ a.entry rho dc dv l ≤ a.xmax) ∧
    (a.xmin ≤ rho → rho ≤ a.xmax → |a.entry rho dc dv l - rho| ≤ a.move) := by
  unfold OCArgs.entry
  simp only
  set y := clip (rho * a.pow (max 0 (-dc / (dv * l + a.eps)))) (rho - a.move) (rho + a.move) with hy
  have h1 := clip_mem (rho * a.pow (max 0 (-dc / (dv * l + a.eps)))) (rho - a.move) (rho + a.move) (by linarith)
  rw [← hy] at h1
  refine ⟨clip_mem _ _ _ hx, ?_⟩
  intro hl hu
  rw [abs_le]
  unfold clip
  constructor
  · have h2 : y ≤ max y a.xmin := le_max_left _ _
    have : rho - a.move ≤ min (max y a.xmin) a.xmax := le_min (by linarith) (by linarith)
    linarith
  · have : min (max y a.xmin) a.xmax ≤ rho + a.move :=
      (min_le_left _ _).trans (max_le h1.2 (by linarith))
    linarith

/-- Entrywise: in bounds and within the move limit of the input. -/
def WithinLimits (a : OCArgs K) (x : List K) : Prop :=
  x.length = a.rho.length ∧ ∀ (i : ℕ) (r v : K), a.rho[i]? = some r → x[i]? = some v →
    a.xmin ≤ v ∧ v ≤ a.xmax ∧ |v - r| ≤ a.move

theorem xnew_length (a : OCArgs K) (hd : a.dc.length = a.rho.length) (hv : a.dv.length = a.rho.length) (l : K) :
    (a.xnew l).length = a.rho.length := by
  unfold OCArgs.xnew
  simp [hd, hv]

theorem xnew_entry (a : OCArgs K) (hd : a.dc.length = a.rho.length) (hv : a.dv.length = a.rho.length) (l : K)
    (i : ℕ) (r v : K) (hr : a.rho[i]? = some r) (h : (a.xnew l)[i]? = some v) :
    ∃ dc dv, a.dc[i]? = some dc ∧ a.dv[i]? = some dv ∧ v = a.entry r dc dv l := by
  have hi : i < a.rho.length := by
    by_contra hc
    rw [List.getElem?_eq_none (by omega)] at hr
    simp at hr
  refine ⟨a.dc[i]'(by omega), a.dv[i]'(by omega), List.getElem?_eq_getElem _, List.getElem?_eq_getElem _, ?_⟩
  unfold OCArgs.xnew at h
  rw [List.getElem?_map, List.getElem?_eq_getElem (by simp; omega)] at h
  rw [List.getElem?_eq_getElem hi] at hr
  simp only [Option.map_some, Option.some.injEq, List.getElem_zip] at h hr
  rw [← h, hr]

/-- C37: every density returned by `oc_update` is in `[xmin, xmax]` and within the move limit of the input, for all
sensitivities, weights, targets, damping functions and multiplier histories, if the input is in `[xmin, xmax]`. -/
theorem C37_bounds_and_move (a : OCArgs K) (hd : a.dc.length = a.rho.length) (hv : a.dv.length = a.rho.length)
    (hx : a.xmin ≤ a.xmax) (hm : 0 ≤ a.move) (hr : ∀ r ∈ a.rho, a.xmin ≤ r ∧ r ≤ a.xmax) (fuel : ℕ)
    (r : K × K × List K) (h : a.update fuel = some r) : WithinLimits a r.2.2 := by
  have hnew : ∀ l, WithinLimits a (a.xnew l) := by
    intro l
    refine ⟨xnew_length a hd hv l, ?_⟩
    intro i r v hri hvi
    obtain ⟨dc, dv, _, _, rfl⟩ := xnew_entry a hd hv l i r v hri hvi
    have hb := oc_entry_bounds a hx hm r dc dv l
    have hrm := hr r (List.mem_of_getElem? hri)
    exact ⟨hb.1.1, hb.1.2, hb.2 hrm.1 hrm.2⟩
  refine (oc_loop_induction a (fun _ _ x => WithinLimits a x) (fun _ _ _ _ _ _ => hnew _) (fun _ _ _ _ _ _ => hnew _)
    fuel 0 a.l2Init a.rho r ?_ h).1
  refine ⟨rfl, ?_⟩
  intro i r v hri hvi
  rw [hri] at hvi
  simp only [Option.some.injEq] at hvi
  subst hvi
  have hrm := hr r (List.mem_of_getElem? hri)
  refine ⟨hrm.1, hrm.2, ?_⟩
  rw [sub_self, abs_zero]
  exact hm

/-- C37: even if the input is out of bounds (a seeded density, say), the output is in `[xmin, xmax]`, provided the
initial multiplier interval is wide enough for one bisection. -/
theorem C37_bounds_from_any_input (a : OCArgs K) (hd : a.dc.length = a.rho.length) (hv : a.dv.length = a.rho.length)
    (hx : a.xmin ≤ a.xmax) (hm : 0 ≤ a.move) (h0 : a.l2Init / (a.l2Init + a.eps) > a.tol) (fuel : ℕ)
    (r : K × K × List K) (h : a.update fuel = some r) : ∀ v ∈ r.2.2, a.xmin ≤ v ∧ v ≤ a.xmax := by
  have hnew : ∀ l, ∀ v ∈ a.xnew l, a.xmin ≤ v ∧ v ≤ a.xmax := by
    intro l v hvm
    obtain ⟨i, hi, rfl⟩ := List.mem_iff_getElem.1 hvm
    have hl : i < a.rho.length := by rw [← xnew_length a hd hv l]; exact hi
    obtain ⟨dc, dv, _, _, e⟩ := xnew_entry a hd hv l i a.rho[i] (a.xnew l)[i] (List.getElem?_eq_getElem hl)
      (List.getElem?_eq_getElem hi)
    rw [e]
    exact (oc_entry_bounds a hx hm _ dc dv l).1
  unfold OCArgs.update at h
  rw [oc_loop_step, if_pos (by simpa using h0)] at h
  cases fuel with
  | zero => simp at h
  | succ n =>
    simp only at h
    split at h
    · exact (oc_loop_induction a (fun _ _ x => ∀ v ∈ x, a.xmin ≤ v ∧ v ≤ a.xmax) (fun _ _ _ _ _ _ => hnew _)
        (fun _ _ _ _ _ _ => hnew _) n _ _ _ r (hnew _) h).1
    · exact (oc_loop_induction a (fun _ _ x => ∀ v ∈ x, a.xmin ≤ v ∧ v ≤ a.xmax) (fun _ _ _ _ _ _ => hnew _)
        (fun _ _ _ _ _ _ => hnew _) n _ _ _ r (hnew _) h).1

theorem volume_bracket (a : OCArgs K) (h0 : 0 ≤ a.l2Init) (fuel : ℕ) (l1 l2 : K) (x : List K)
    (h : a.update fuel = some (l1, l2, x)) :
    0 ≤ l1 ∧ l1 ≤ l2 ∧ l2 ≤ a.l2Init ∧
    (l1 = 0 ∨ a.volume (a.xnew l1) > a.target) ∧ (l2 = a.l2Init ∨ a.volume (a.xnew l2) ≤ a.target) ∧
    ((x = a.rho ∧ l1 = 0 ∧ l2 = a.l2Init) ∨ x = a.xnew l1 ∨ x = a.xnew l2) ∧
    (l2 - l1) / (l1 + l2 + a.eps) ≤ a.tol := by
  have := oc_loop_induction a (fun l1 l2 x => 0 ≤ l1 ∧ l1 ≤ l2 ∧ l2 ≤ a.l2Init ∧
    (l1 = 0 ∨ a.volume (a.xnew l1) > a.target) ∧ (l2 = a.l2Init ∨ a.volume (a.xnew l2) ≤ a.target) ∧
    ((x = a.rho ∧ l1 = 0 ∧ l2 = a.l2Init) ∨ x = a.xnew l1 ∨ x = a.xnew l2)) ?_ ?_ fuel 0 a.l2Init a.rho (l1, l2, x)
    ⟨le_refl _, h0, le_refl _, Or.inl rfl, Or.inl rfl, Or.inl ⟨rfl, rfl, rfl⟩⟩ h
  · obtain ⟨⟨a1, a2, a3, a4, a5, a6⟩, a7⟩ := this
    exact ⟨a1, a2, a3, a4, a5, a6, a7⟩
  · rintro l1 l2 x ⟨a1, a2, a3, a4, a5, a6⟩ hc hvol
    exact ⟨by linarith, by linarith, a3, Or.inr hvol, a5, Or.inr (Or.inl rfl)⟩
  · rintro l1 l2 x ⟨a1, a2, a3, a4, a5, a6⟩ hc hvol
    exact ⟨a1, by linarith, by linarith, a4, Or.inr hvol, Or.inr (Or.inr rfl)⟩

/-- C37: the volume bracket. The final interval lies in `[0, l2_init]`; unless its lower end is still 0 the volume
there is above the target, unless its upper end is still `l2_init` the volume there is at most the target; the
returned densities are those of one of the two ends (the input, if no bisection was made), and the interval is as
narrow as `bisect_tol` asks. -/
theorem C37_volume_bracket (a : OCArgs K) (h0 : 0 ≤ a.l2Init) (fuel : ℕ) (l1 l2 : K) (x : List K)
    (h : a.update fuel = some (l1, l2, x)) :
    let vol := fun y : List K => (List.zipWith (· * ·) y a.dv).sum
    0 ≤ l1 ∧ l1 ≤ l2 ∧ l2 ≤ a.l2Init ∧
    (l1 = 0 ∨ vol (a.xnew l1) > a.volfrac * a.dv.sum) ∧ (l2 = a.l2Init ∨ vol (a.xnew l2) ≤ a.volfrac * a.dv.sum) ∧
    ((x = a.rho ∧ l1 = 0 ∧ l2 = a.l2Init) ∨ x = a.xnew l1 ∨ x = a.xnew l2) ∧
    (l2 - l1) / (l1 + l2 + a.eps) ≤ a.tol := volume_bracket a h0 fuel l1 l2 x h

/-- C37: the bisection terminates. -/
theorem C37_terminates [Archimedean K] (a : OCArgs K) (h0 : 0 ≤ a.l2Init) (ht : 0 < a.tol) (he : 0 < a.eps) :
    ∃ fuel r, a.update fuel = some r := by
  have key : ∀ (n : ℕ) (l1 l2 : K) (x : List K), 0 ≤ l1 → l1 ≤ l2 → l2 - l1 ≤ a.tol * a.eps * 2 ^ n →
      ∃ r, a.loop n l1 l2 x = some r := by
    intro n
    induction n with
    | zero =>
      intro l1 l2 x h1 h2 h3
      refine ⟨(l1, l2, x), ?_⟩
      rw [oc_loop_step, if_neg]
      rw [not_lt, div_le_iff₀ (by linarith)]
      have : a.tol * a.eps ≤ a.tol * (l1 + l2 + a.eps) := by
        apply mul_le_mul_of_nonneg_left _ ht.le
        linarith
      simp only [pow_zero, mul_one] at h3
      linarith
    | succ n ih =>
      intro l1 l2 x h1 h2 h3
      rw [oc_loop_step]
      split
      · have hw : a.tol * a.eps * 2 ^ (n + 1) = 2 * (a.tol * a.eps * 2 ^ n) := by ring
        simp only
        split
        · exact ih _ _ _ (by linarith) (by linarith) (by linarith)
        · exact ih _ _ _ (by linarith) (by linarith) (by linarith)
      · exact ⟨_, rfl⟩
  have hpos : 0 < a.tol * a.eps := mul_pos ht he
  obtain ⟨n, hn⟩ := pow_unbounded_of_one_lt (a.l2Init / (a.tol * a.eps)) (by norm_num : (1 : K) < 2)
  rw [div_lt_iff₀ hpos] at hn
  refine ⟨n, key n 0 a.l2Init a.rho (le_refl _) h0 ?_⟩
  rw [sub_zero]
  linarith

end OC

/-- Two cells, one stiffer; damping `be ↦ be` and a coarse tolerance. All hypotheses above hold. -/
def exOC : OCArgs ℚ where
  rho := [1 / 2, 1 / 2]
  dc := [-4, -1]
  dv := [1, 1]
  volfrac := 1 / 2
  move := 1 / 5
  xmin := 1 / 1000
  xmax := 1
  pow := id
  tol := 1 / 10
  l2Init := 16
  eps := 1 / 1000

example : exOC.l2Init / (exOC.l2Init + exOC.eps) > exOC.tol ∧
    (exOC.update 20).map (fun r => r.2.2) = some [7 / 10, 3 / 10] := by decide +kernel

/-! ## C38 -/

theorem pyRound_le {q : ℚ} {d : ℤ} (h : q ≤ d) : pyRound q ≤ d := by
  unfold pyRound
  simp only
  have h1 : ⌊q⌋ ≤ d := by
    have := Int.floor_le q
    exact_mod_cast this.trans h
  have h2 : (1 : ℚ) / 2 ≤ q - ⌊q⌋ → ⌊q⌋ + 1 ≤ d := by
    intro hr
    by_contra hc
    have : d = ⌊q⌋ := by omega
    rw [this] at h
    linarith
  split
  · exact h1
  · rename_i h3
    have := h2 (not_lt.1 h3)
    split
    · exact this
    · split <;> omega

/-- `a` is at most as fine as `b` in each direction. -/
def AtMostAsFine (a b : List ℤ) : Prop := a.length = b.length ∧ ∀ (i : ℕ) (x y : ℤ), a[i]? = some x → b[i]? = some y → x ≤ y

theorem coarsen_le (factor : ℚ) (floor : ℤ) (hf : 1 ≤ factor) (dims : List ℤ) (hd : ∀ d ∈ dims, floor ≤ d)
    (h0 : ∀ d ∈ dims, 0 ≤ d) : AtMostAsFine (coarsen factor floor dims) dims := by
  unfold coarsen
  refine ⟨by simp, ?_⟩
  intro i x y hx hy
  rw [List.getElem?_map, hy] at hx
  simp only [Option.map_some, Option.some.injEq] at hx
  subst hx
  have hm := List.mem_of_getElem? hy
  apply max_le (hd y hm)
  apply pyRound_le
  have hy0 : (0 : ℚ) ≤ y := by exact_mod_cast h0 y hm
  exact div_le_self hy0 hf

theorem ladderLoop_spec (factor : ℚ) (floor : ℤ) (n : ℕ) (head : List ℤ) (rest : List (List ℤ)) :
    ∃ front, ladderLoop factor floor n head rest = front ++ head :: rest ∧ front.length ≤ n := by
  induction n generalizing head rest with
  | zero => exact ⟨[], rfl, by simp⟩
  | succ n ih =>
    rw [ladderLoop]
    split
    · exact ⟨[], rfl, by simp⟩
    · obtain ⟨front, e, hl⟩ := ih (coarsen factor floor head) (head :: rest)
      exact ⟨front ++ [coarsen factor floor head], by rw [e]; simp, by simp; omega⟩

/-- C38: the ladder ends with the requested dims and has at most `n_levels` entries (one, if `n_levels < 1`). -/
theorem C38_ends_at_request (dims : List ℤ) (nLevels : ℤ) (factor : ℚ) (floor : ℤ) :
    (resLadder dims nLevels factor floor).getLast? = some dims ∧
    ((resLadder dims nLevels factor floor).length : ℤ) ≤ max 1 nLevels := by
  obtain ⟨front, e, hl⟩ := ladderLoop_spec factor floor (nLevels - 1).toNat dims []
  unfold resLadder
  rw [e]
  constructor
  · simp
  · simp only [List.length_append, List.length_cons, List.length_nil]
    omega

/-- C38 (partial: no requested dim is below `floor`). Every level is at most as fine as the next one in each
direction, two consecutive levels differ, and every level respects `floor`. Missing: dims below `floor`, where the
coarser levels can be finer than the requested grid (`C38_floor_makes_coarse_level_finer`). -/
theorem C38_coarse_to_fine_partial (dims : List ℤ) (nLevels : ℤ) (factor : ℚ) (floor : ℤ) (hf : 1 ≤ factor)
    (hd : ∀ d ∈ dims, floor ≤ d) (h0 : ∀ d ∈ dims, 0 ≤ d) (hfl : 0 ≤ floor) :
    (resLadder dims nLevels factor floor).IsChain (fun a b => AtMostAsFine a b ∧ a ≠ b) ∧
    ∀ l ∈ resLadder dims nLevels factor floor, l.length = dims.length ∧ ∀ d ∈ l, floor ≤ d := by
  have key : ∀ (n : ℕ) (head : List ℤ) (rest : List (List ℤ)), (∀ d ∈ head, floor ≤ d) →
      (head :: rest).IsChain (fun a b => AtMostAsFine a b ∧ a ≠ b) →
      (∀ l ∈ head :: rest, l.length = dims.length ∧ ∀ d ∈ l, floor ≤ d) →
      (ladderLoop factor floor n head rest).IsChain (fun a b => AtMostAsFine a b ∧ a ≠ b) ∧
      ∀ l ∈ ladderLoop factor floor n head rest, l.length = dims.length ∧ ∀ d ∈ l, floor ≤ d := by
    intro n
    induction n with
    | zero => intro head rest _ h2 h3; exact ⟨h2, h3⟩
    | succ n ih =>
      intro head rest h1 h2 h3
      rw [ladderLoop]
      split
      · exact ⟨h2, h3⟩
      · rename_i hne
        have hfloor : ∀ d ∈ coarsen factor floor head, floor ≤ d := by
          intro d hdm
          unfold coarsen at hdm
          rw [List.mem_map] at hdm
          obtain ⟨e, _, rfl⟩ := hdm
          exact le_max_left _ _
        apply ih _ _ hfloor
        · rw [List.isChain_cons_cons]
          exact ⟨⟨coarsen_le factor floor hf head h1 (fun d hdm => hfl.trans (h1 d hdm)), hne⟩, h2⟩
        · intro l hl
          rw [List.mem_cons] at hl
          rcases hl with rfl | hl
          · refine ⟨?_, hfloor⟩
            have := (h3 head (by simp)).1
            simpa [coarsen] using this
          · exact h3 l hl
  exact key _ dims [] hd (by simp) (by
    intro l hl
    have : l = dims := by simpa using hl
    subst this
    exact ⟨rfl, hd⟩)

/-- C38 fails for dims below the floor: the default floor 8 makes the "coarse" level of a `(4, 4, 4)` grid finer
than the grid. -/
theorem C38_floor_makes_coarse_level_finer :
    resLadder [4, 4, 4] 2 2 8 = [[8, 8, 8], [4, 4, 4]] ∧ ¬ AtMostAsFine [8, 8, 8] [4, 4, 4] := by
  refine ⟨by decide +kernel, ?_⟩
  rintro ⟨_, h⟩
  exact absurd (h 0 8 4 rfl rfl) (by decide)

/-- Three levels for a `(100, 50, 20)` grid. -/
example : resLadder [100, 50, 20] 3 2 8 = [[25, 12, 8], [50, 25, 10], [100, 50, 20]] := by decide +kernel

/-! ## C65 -/

theorem levelPlans_dims (nIter ci gus : ℤ) (lvl : ℕ) (off : ℤ) (ladder : List (List ℤ)) :
    (levelPlans nIter ci gus lvl off ladder).map (·.dims) = ladder := by
  induction ladder generalizing lvl off with
  | nil => rfl
  | cons d rest ih =>
    rw [levelPlans]
    simp only [List.map_cons, ih]
    congr 1
    split <;> rfl

theorem levelPlans_refine (nIter ci gus : ℤ) (lvl : ℕ) (hl : lvl ≠ 0) (off : ℤ) (ladder : List (List ℤ))
    (k : ℕ) (p : LevelPlan) (h : (levelPlans nIter ci gus lvl off ladder)[k]? = some p) :
    p.seeded = true ∧ p.gridUpdateStart = 0 ∧ p.nIter = (if k + 1 = ladder.length then nIter else ci) := by
  induction ladder generalizing lvl off k with
  | nil => simp [levelPlans] at h
  | cons d rest ih =>
    rw [levelPlans] at h
    simp only [if_neg hl] at h
    cases k with
    | zero =>
      simp only [List.getElem?_cons_zero, Option.some.injEq] at h
      subst h
      refine ⟨rfl, rfl, ?_⟩
      cases rest <;> simp
    | succ k =>
      rw [List.getElem?_cons_succ] at h
      obtain ⟨h1, h2, h3⟩ := ih (lvl + 1) (by omega) _ k h
      refine ⟨h1, h2, ?_⟩
      rw [h3]
      simp

theorem levelPlans_offsets (nIter ci gus : ℤ) (lvl : ℕ) (off : ℤ) (ladder : List (List ℤ)) (k : ℕ) (p : LevelPlan)
    (h : (levelPlans nIter ci gus lvl off ladder)[k]? = some p) :
    p.itOffset = off + (((levelPlans nIter ci gus lvl off ladder).take k).map (·.nIter)).sum := by
  induction ladder generalizing lvl off k with
  | nil => simp [levelPlans] at h
  | cons d rest ih =>
    rw [levelPlans] at h ⊢
    cases k with
    | zero =>
      simp only [List.getElem?_cons_zero, Option.some.injEq] at h
      subst h
      split <;> simp
    | succ k =>
      rw [List.getElem?_cons_succ] at h
      rw [ih _ _ k h]
      simp only [List.take_succ_cons, List.map_cons, List.sum_cons]
      ring

/-- C65 (partial: a ladder of at least two levels). The levels run are those of the ladder, in order; the first
starts from the uniform design with the requested exploration phase and `coarse_iter` iterations; every later one
is seeded by its predecessor, never explores the full grid, and runs `coarse_iter` iterations, the finest `n_iter`;
iteration numbers are continuous across levels. Missing: ladders of one level
(`C65_single_level_ignores_n_iter`). -/
theorem C65_level_schedule_partial (dims : List ℤ) (nLevels : ℤ) (factor : ℚ) (floor nIter : ℤ)
    (coarseIter : Option ℤ) (gus : ℤ) :
    let ladder := resLadder dims nLevels factor floor
    let ci := coarseIter.getD (max 10 (nIter / 2))
    let plan := multiresPlan dims nLevels factor floor nIter coarseIter gus
    plan.map (·.dims) = ladder ∧
    (∀ p, plan[0]? = some p → p.seeded = false ∧ p.gridUpdateStart = gus ∧ p.nIter = ci) ∧
    (∀ k p, plan[k + 1]? = some p → p.seeded = true ∧ p.gridUpdateStart = 0 ∧
      p.nIter = if k + 2 = ladder.length then nIter else ci) ∧
    (∀ (k : ℕ) p, plan[k]? = some p → p.itOffset = ((plan.take k).map (·.nIter)).sum) := by
  intro ladder ci plan
  refine ⟨levelPlans_dims _ _ _ _ _ _, ?_, ?_, ?_⟩
  · intro p hp
    have : plan = levelPlans nIter ci gus 0 0 ladder := rfl
    rw [this] at hp
    cases hl : ladder with
    | nil => rw [hl] at hp; simp [levelPlans] at hp
    | cons d rest =>
      rw [hl, levelPlans] at hp
      simp at hp
      subst hp
      exact ⟨rfl, rfl, rfl⟩
  · intro k p hp
    have : plan = levelPlans nIter ci gus 0 0 ladder := rfl
    rw [this] at hp
    cases hl : ladder with
    | nil => rw [hl] at hp; simp [levelPlans] at hp
    | cons d rest =>
      rw [hl, levelPlans] at hp
      simp only [List.getElem?_cons_succ] at hp
      have := levelPlans_refine nIter ci gus 1 (by omega) _ rest k p hp
      simpa using this
  · intro k p hp
    have := levelPlans_offsets nIter ci gus 0 0 ladder k p hp
    rw [zero_add] at this
    exact this

/-- C65 fails when the ladder has one level (`n_levels = 1`, or dims that cannot be coarsened): the requested grid
is optimised for `coarse_iter` iterations instead of `n_iter`. -/
theorem C65_single_level_ignores_n_iter (dims : List ℤ) (nIter : ℤ) (coarseIter : Option ℤ) (gus : ℤ) (factor : ℚ)
    (floor : ℤ) :
    multiresPlan dims 1 factor floor nIter coarseIter gus =
      [⟨dims, false, gus, coarseIter.getD (max 10 (nIter / 2)), 0⟩] := by
  rfl

/-- Forty requested iterations on one level: twenty are run. -/
example : (multiresPlan [8, 8, 8] 1 2 8 40 none 1).map (·.nIter) = [20] := by decide +kernel

example : (multiresPlan [32, 32, 32] 3 2 8 40 none 1).map (fun p => (p.dims, p.nIter, p.itOffset)) =
    [([8, 8, 8], 20, 0), ([16, 16, 16], 20, 20), ([32, 32, 32], 40, 40)] := by decide +kernel

/-! ## C66 -/

section Band
variable {D : Type*} (full : List ℕ) (band : D → List ℕ) (step : SolverHandle → List ℕ → D → D) (gus : ℕ)
  (jitAfter : Option ℕ)

/-- The state is consistent: there is a solver exactly when there is a previous active set, built for it, with the
recorded jit flag. -/
def BandConsistent (s : BandState D) : Prop :=
  (s.prevActive = none ∧ s.solver = none ∧ s.jitOn = false) ∨
    ∃ a, s.prevActive = some a ∧ s.solver = some ⟨a, s.jitOn⟩

theorem useJitAt_mono {jitAfter : Option ℕ} {a b : ℕ} (h : a ≤ b) (ha : useJitAt jitAfter a = true) : useJitAt jitAfter b = true := by
  cases jitAfter with
  | none => simp [useJitAt] at ha
  | some j => simp [useJitAt] at *; omega

theorem bandLoop_spec (n it : ℕ) (s : BandState D) (hs : BandConsistent s)
    (hj : s.jitOn = true → useJitAt jitAfter it = true) (k : ℕ) (r : BandRecord)
    (h : (bandLoop full band step gus jitAfter n it s).1[k]? = some r) :
    r.handle.builtFor = r.active ∧ r.handle.jit = useJitAt jitAfter (it + k) := by
  induction n generalizing it s k with
  | zero => simp [bandLoop] at h
  | succ n ih =>
    rw [bandLoop] at h
    simp only at h
    set active := if it < gus then full else band s.rho with hact
    set built := (decide (s.prevActive ≠ some active) || (useJitAt jitAfter it && !s.jitOn)) with hb
    set handle : SolverHandle := if built = true then ⟨active, useJitAt jitAfter it⟩ else s.solver.getD ⟨[], false⟩ with hh
    have hhandle : handle = ⟨active, useJitAt jitAfter it⟩ ∧ (if built = true then useJitAt jitAfter it else s.jitOn) = useJitAt jitAfter it := by
      by_cases hbt : built = true
      · rw [hh, if_pos hbt, if_pos hbt]; exact ⟨rfl, rfl⟩
      · rw [hh, if_neg hbt, if_neg hbt]
        have hbf : built = false := by simpa using hbt
        rw [hb, Bool.or_eq_false_iff] at hbf
        obtain ⟨h1, h2⟩ := hbf
        have h1' : s.prevActive = some active := by simpa using h1
        rcases hs with ⟨hp, _⟩ | ⟨a, hp, hsv⟩
        · rw [hp] at h1'; simp at h1'
        · rw [hp] at h1'
          simp only [Option.some.injEq] at h1'
          subst h1'
          have hjj : s.jitOn = useJitAt jitAfter it := by
            cases hjo : s.jitOn with
            | true => exact (hj hjo).symm
            | false =>
              rw [hjo] at h2
              simpa using h2.symm
          rw [hsv, hjj]
          exact ⟨rfl, rfl⟩
    cases k with
    | zero =>
      simp only [List.getElem?_cons_zero, Option.some.injEq] at h
      subst h
      simp only [hhandle.1, Nat.add_zero]
      exact ⟨trivial, trivial⟩
    | succ k =>
      rw [List.getElem?_cons_succ] at h
      have := ih (it + 1) _ (by
        right
        refine ⟨active, rfl, ?_⟩
        simp only
        rw [hhandle.1, hhandle.2]) (by
        simp only
        rw [hhandle.2]
        exact useJitAt_mono (Nat.le_succ it)) k h
      rw [show it + (k + 1) = it + 1 + k by omega]
      exact this

theorem bandLoop_length (n it : ℕ) (s : BandState D) : (bandLoop full band step gus jitAfter n it s).1.length = n := by
  induction n generalizing it s with
  | zero => rfl
  | succ n ih => rw [bandLoop]; simp [ih]

/-- C66: in every iteration of the moving-band loop the solver used was built for that iteration's active cells,
and is the jitted one exactly from iteration `jit_after` on; there are `n_iter` iterations. -/
theorem C66_solver_matches_active_set (nIter : ℕ) (rho0 : D) :
    (runBand full band step gus jitAfter nIter rho0).1.length = nIter ∧
    ∀ (k : ℕ) (r : BandRecord), (runBand full band step gus jitAfter nIter rho0).1[k]? = some r →
      r.handle.builtFor = r.active ∧ (r.handle.jit = true ↔ ∃ j, jitAfter = some j ∧ j ≤ k) := by
  refine ⟨bandLoop_length _ _ _ _ _ _ _ _, ?_⟩
  intro k r h
  have := bandLoop_spec full band step gus jitAfter nIter 0 _ (Or.inl ⟨rfl, rfl, rfl⟩) (by simp) k r h
  refine ⟨this.1, ?_⟩
  rw [this.2, Nat.zero_add]
  cases jitAfter <;> simp [useJitAt]

/-- The designs along the loop: `design k` before iteration `k`. -/
def IsDesignHistory (nIter : ℕ) (design : ℕ → D) : Prop :=
  ∀ k < nIter, design (k + 1) =
    step ⟨if k < gus then full else band (design k), useJitAt jitAfter k⟩ (if k < gus then full else band (design k)) (design k)

theorem bandLoop_active (n it : ℕ) (s : BandState D) (hs : BandConsistent s)
    (hj : s.jitOn = true → useJitAt jitAfter it = true) (design : ℕ → D) (h0 : design it = s.rho)
    (hd : ∀ k, it ≤ k → k < it + n → design (k + 1) =
      step ⟨if k < gus then full else band (design k), useJitAt jitAfter k⟩ (if k < gus then full else band (design k)) (design k)) :
    (∀ (k : ℕ) (r : BandRecord), (bandLoop full band step gus jitAfter n it s).1[k]? = some r →
      r.active = if it + k < gus then full else band (design (it + k))) ∧
    (bandLoop full band step gus jitAfter n it s).2 = design (it + n) := by
  induction n generalizing it s with
  | zero => exact ⟨by simp [bandLoop], h0.symm⟩
  | succ n ih =>
    have hspec := bandLoop_spec full band step gus jitAfter (n + 1) it s hs hj 0
    rw [bandLoop] at hspec ⊢
    simp only at hspec ⊢
    obtain ⟨hb1, hb2⟩ := hspec _ rfl
    simp only at hb1 hb2
    set active := if it < gus then full else band s.rho with hact
    set rec := bandLoop full band step gus jitAfter n (it + 1)
    set built := (decide (s.prevActive ≠ some active) || (useJitAt jitAfter it && !s.jitOn)) with hbu
    set handle : SolverHandle := if built = true then ⟨active, useJitAt jitAfter it⟩ else s.solver.getD ⟨[], false⟩ with hh
    have hhandle : handle = ⟨active, useJitAt jitAfter it⟩ := by
      rw [Nat.add_zero] at hb2
      rcases hd2 : handle with ⟨x, y⟩
      rw [hd2] at hb1 hb2
      simp only at hb1 hb2
      rw [hb1, hb2]
    have hjon : (if built = true then useJitAt jitAfter it else s.jitOn) = useJitAt jitAfter it := by
      by_cases hbt : built = true
      · rw [if_pos hbt]
      · rw [if_neg hbt]
        have hbf : built = false := by simpa using hbt
        rw [hbu, Bool.or_eq_false_iff] at hbf
        cases hjo : s.jitOn with
        | true => exact (hj hjo).symm
        | false =>
          have h2 := hbf.2
          rw [hjo] at h2
          simpa using h2.symm
    have hnext : design (it + 1) = step handle active s.rho := by
      rw [hd it (le_refl _) (by omega), h0, ← hact, hhandle]
    obtain ⟨i1, i2⟩ := ih (it + 1) ⟨step handle active s.rho, some active, some handle,
        if built = true then useJitAt jitAfter it else s.jitOn⟩
      (Or.inr ⟨active, rfl, by simp only; rw [hhandle, hjon]⟩)
      (by simp only; rw [hjon]; exact useJitAt_mono (Nat.le_succ it)) hnext
      (fun k h1 h2 => hd k (by omega) (by omega))
    constructor
    · intro k r h
      cases k with
      | zero =>
        simp only [List.getElem?_cons_zero, Option.some.injEq] at h
        subst h
        simp only [Nat.add_zero, h0]
        exact hact
      | succ k =>
        rw [List.getElem?_cons_succ] at h
        rw [i1 k r h]
        rw [show it + 1 + k = it + (k + 1) by omega]
    · rw [i2]
      rw [show it + 1 + n = it + (n + 1) by omega]

/-- C66: the loop solves on the full grid for the first `grid_update_start` iterations and on the band of the
current design afterwards; the returned design is the last one. -/
theorem C66_band_follows_design (nIter : ℕ) (design : ℕ → D)
    (hd : IsDesignHistory full band step gus jitAfter nIter design) :
    (∀ (k : ℕ) (r : BandRecord), (runBand full band step gus jitAfter nIter (design 0)).1[k]? = some r →
      r.active = if k < gus then full else band (design k)) ∧
    (runBand full band step gus jitAfter nIter (design 0)).2 = design nIter := by
  have := bandLoop_active full band step gus jitAfter nIter 0 ⟨design 0, none, none, false⟩ (Or.inl ⟨rfl, rfl, rfl⟩)
    (by simp) design rfl (fun k _ h => hd k (by omega))
  simpa [runBand] using this

end Band

/-- A design that loses its last cell each iteration until one is left; jit from iteration 3. -/
example : (runBand [0, 1, 2, 3] (fun d : List ℕ => d) (fun _ _ d => if d.length ≤ 2 then d else d.dropLast) 1 (some 3) 5
      [0, 1, 2, 3]).1.map (fun r => (r.active, r.handle.jit, r.rebuilt)) =
    [([0, 1, 2, 3], false, true), ([0, 1, 2], false, true), ([0, 1], false, true), ([0, 1], true, true),
      ([0, 1], true, false)] := by decide

end Verif.Props
