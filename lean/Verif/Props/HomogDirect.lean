import Verif.Props.Homog
import Mathlib.Analysis.Calculus.Deriv.Add
import Mathlib.Analysis.Calculus.Deriv.Mul
import Mathlib.Analysis.SpecialFunctions.ExpDeriv

/-!
# The direct homogenisation path (C120) and gradients (C121)
-/

namespace Verif.Props
open Verif.Model Verif.Model.Homog

namespace Spec.Homog
variable {d : ℕ}

/-- The layout of a periodic prolongation: every reduced DOF belongs to exactly one spatial component. -/
structure Tidy (P : Tie d) : Prop where
  nonempty : 0 < P.N
  separate : ∀ n < P.N, ∀ m < P.N, ∀ i j, P.col n i = P.col m j → i = j
  onto : ∀ k < P.M, ∃ n < P.N, ∃ i, P.col n i = k

/-- The cell holds together: only translations are free of energy among periodic fields. -/
def Connected (pts : List (HPoint d)) (P : Tie d) : Prop :=
  ∀ v, Periodic P v → work pts v v = 0 → ∀ n < P.N, ∀ m < P.N, ∀ i, v n i = v m i

/-- A direct solver that solves every symmetric positive definite system with `M` unknowns. -/
def ExactDirect (M : ℕ) (solve : DirectSolver) : Prop := ∀ (A : ℕ → ℕ → ℝ) (b : ℕ → ℝ),
  (∀ i < M, ∀ j < M, A i j = A j i) →
  (∀ x : ℕ → ℝ, (∃ j < M, x j ≠ 0) → 0 < ∑ i ∈ Finset.range M, ∑ j ∈ Finset.range M, x i * A i j * x j) →
  ∀ i < M, ∑ j ∈ Finset.range M, A i j * solve A b j = b i

end Spec.Homog

open Spec.Homog

variable {d : ℕ} {pts : List (HPoint d)} {X : Field d} {P : Tie d}

/-! ## Pins -/

theorem minOf_mem : ∀ {l : List ℕ}, l ≠ [] → minOf l ∈ l
  | [], h => absurd rfl h
  | a :: l, _ => by
    have : ∀ (l : List ℕ) (a : ℕ), l.foldl min a = a ∨ l.foldl min a ∈ l := by
      intro l
      induction l with
      | nil => intro a; simp
      | cons b l ih =>
        intro a
        simp only [List.foldl_cons, List.mem_cons]
        rcases ih (min a b) with h | h
        · rw [h]
          rcases min_choice a b with h' | h' <;> rw [h'] <;> simp
        · exact Or.inr (Or.inr h)
    simp only [minOf, List.mem_cons]
    exact this l a

theorem mem_candidates (P : Tie d) (c : Fin d) (k : ℕ) :
    k ∈ (P.entries.filter fun e => e.1 % d == c.1).map (·.2) ↔ ∃ n < P.N, P.col n c = k := by
  simp only [Tie.entries, List.mem_map, List.mem_filter, List.mem_flatMap, List.mem_range, List.mem_finRange, true_and, beq_iff_eq]
  constructor
  · rintro ⟨e, ⟨⟨n, hn, i, rfl⟩, hc⟩, rfl⟩
    rw [Nat.mul_add_mod, Nat.mod_eq_of_lt i.2] at hc
    exact ⟨n, hn, by rw [Fin.ext hc]⟩
  · rintro ⟨n, hn, rfl⟩
    exact ⟨_, ⟨⟨n, hn, c, rfl⟩, by simp [Nat.mul_add_mod, Nat.mod_eq_of_lt c.2]⟩, rfl⟩

theorem mapM_all_ok {α β : Type*} (f : α → Except PyErr β) (g : α → β) (l : List α) (h : ∀ a ∈ l, f a = .ok (g a)) :
    l.mapM f = .ok (l.map g) := by
  induction l with
  | nil => rfl
  | cons a l ih =>
    rw [List.mapM_cons, h a (by simp), ih fun b hb => h b (by simp [hb])]
    rfl

/-- **C120.** The direct path pins exactly one reduced DOF of every component. -/
theorem C120_pins (ht : Tidy P) : ∃ pin : Fin d → ℕ, translationPins P.entries d d = .ok (List.ofFn pin) ∧
    ∀ c, ∃ n < P.N, pin c = P.col n c := by
  have hne : ∀ c : Fin d, (P.entries.filter fun e => e.1 % d == c.1).map (·.2) ≠ [] := by
    intro c h0
    have := (mem_candidates P c (P.col 0 c)).2 ⟨0, ht.nonempty, rfl⟩
    rw [h0] at this
    simp at this
  have hp : ∀ c : Fin d, ∃ n < P.N, P.col n c = minOf ((P.entries.filter fun e => e.1 % d == c.1).map (·.2)) := fun c =>
    (mem_candidates P c _).1 (minOf_mem (hne c))
  refine ⟨fun c => minOf ((P.entries.filter fun e => e.1 % d == c.1).map (·.2)), ?_, fun c => ?_⟩
  · have h1 : ((List.range d).mapM fun c =>
        if ((P.entries.filter fun e => e.1 % d == c).map (·.2)).isEmpty then Except.error PyErr.valueError
        else .ok (minOf ((P.entries.filter fun e => e.1 % d == c).map (·.2)))) =
        .ok ((List.range d).map fun c => minOf ((P.entries.filter fun e => e.1 % d == c).map (·.2))) := by
      refine mapM_all_ok _ _ _ fun c hc => ?_
      rw [if_neg]
      rw [List.isEmpty_iff]
      exact hne ⟨c, List.mem_range.1 hc⟩
    have h2 : (List.range d).map (fun c => minOf ((P.entries.filter fun e => e.1 % d == c).map (·.2))) =
        List.ofFn fun c : Fin d => minOf ((P.entries.filter fun e => e.1 % d == c.1).map (·.2)) := by
      rw [List.ofFn_eq_map, ← List.map_coe_finRange_eq_range, List.map_map]
      rfl
    have hnd : (List.ofFn fun c : Fin d => minOf ((P.entries.filter fun e => e.1 % d == c.1).map (·.2))).Nodup := by
      rw [List.nodup_ofFn]
      intro a b hab
      obtain ⟨n, hn, h3⟩ := hp a
      obtain ⟨m, hm, h4⟩ := hp b
      exact ht.separate n hn m hm a b (by rw [h3, h4]; exact hab)
    unfold translationPins
    simp only [h1, h2, bind, Except.bind, hnd.dedup, List.length_ofFn]
    simp
  · obtain ⟨n, hn, h3⟩ := hp c
    exact ⟨n, hn, h3.symm⟩

/-- **C120.** A prolongation that carries no DOF of some component is refused. -/
theorem C120_pins_missing (entries : List (ℕ × ℕ)) (vec dim c : ℕ) (hc : c < dim) (h : ∀ e ∈ entries, e.1 % vec ≠ c) :
    translationPins entries vec dim = .error .valueError := by
  have : ∀ (l : List ℕ), c ∈ l → (l.mapM fun c =>
      if ((entries.filter fun e => e.1 % vec == c).map (·.2)).isEmpty then Except.error PyErr.valueError
      else .ok (minOf ((entries.filter fun e => e.1 % vec == c).map (·.2)))) = .error .valueError := by
    intro l hl
    induction l with
    | nil => simp at hl
    | cons a l ih =>
      rw [List.mapM_cons]
      by_cases hac : a = c
      · subst hac
        have : (entries.filter fun e => e.1 % vec == a).map (·.2) = [] := by
          simpa using h
        rw [this]
        rfl
      · have := ih (by simpa [Ne.symm hac] using hl)
        rw [this]
        split_ifs <;> rfl
  unfold translationPins
  simp only [this _ (List.mem_range.2 hc)]
  rfl

/-! ## The pinned system -/

theorem sum_congr_reduced (h : Cell pts X P) {x y : ℕ → ℝ} (hxy : ∀ k < P.M, x k = y k) : reducedOp pts P x = reducedOp pts P y := by
  unfold reducedOp
  congr 1
  funext n i
  simp only [Homog.residual]
  congr 1
  refine List.map_congr_left fun q hq => ?_
  congr 1
  refine List.map_congr_left fun a _ => ?_
  rw [hgrad_congr (h.nodes q hq) (u := P.prolong x) (u' := P.prolong y) fun n hn i => hxy _ (h.range n hn i)]

theorem reducedOp_matrix (h : Cell pts X P) (x : ℕ → ℝ) (i : ℕ) :
    reducedOp pts P x i = ∑ j ∈ Finset.range P.M, reducedMatrix pts P i j * x j := by
  have h1 : ∀ s : Finset ℕ, reducedOp pts P (∑ j ∈ s, x j • fun k => if k = j then (1 : ℝ) else 0) i =
      ∑ j ∈ s, reducedMatrix pts P i j * x j := by
    intro s
    induction s using Finset.induction_on with
    | empty =>
      have := congrFun (reducedOp_smul h 0 (0 : ℕ → ℝ)) i
      simpa using this
    | insert a s ha ih =>
      rw [Finset.sum_insert ha, Finset.sum_insert ha, reducedOp_add h, Pi.add_apply, ih, reducedOp_smul h, Pi.smul_apply, smul_eq_mul,
        reducedMatrix, mul_comm]
  rw [← h1]
  refine congrFun (sum_congr_reduced h fun k hk => ?_) i
  rw [Finset.sum_apply, Finset.sum_eq_single k]
  · simp
  · intro j _ hj
    simp [Ne.symm hj]
  · intro hn
    exact absurd (Finset.mem_range.2 hk) hn

theorem reducedMatrix_symm (h : Cell pts X P) {i j : ℕ} (hi : i < P.M) (hj : j < P.M) : reducedMatrix pts P i j = reducedMatrix pts P j i := by
  have key : ∀ a b, a < P.M → reducedMatrix pts P a b = work pts (P.prolong fun k => if k = b then 1 else 0)
      (P.prolong fun k => if k = a then 1 else 0) := by
    intro a b ha
    rw [← reducedOp_form h]
    rw [Finset.sum_eq_single a]
    · simp [reducedMatrix]
    · intro k _ hk; simp [hk]
    · intro hn; exact absurd (Finset.mem_range.2 ha) hn
  rw [key i j hi, key j i hj, work_comm h.elastic]

theorem pinnedMatrix_symm (h : Cell pts X P) (pins : List ℕ) {i j : ℕ} (hi : i < P.M) (hj : j < P.M) :
    pinnedMatrix (reducedMatrix pts P) pins i j = pinnedMatrix (reducedMatrix pts P) pins j i := by
  unfold pinnedMatrix
  simp only [or_comm (a := j ∈ pins), eq_comm (a := j)]
  split_ifs <;> first | rfl | exact reducedMatrix_symm h hi hj

/-- The pinned quadratic form. -/
theorem pinned_form (h : Cell pts X P) (pins : List ℕ) (x : ℕ → ℝ) :
    ∑ i ∈ Finset.range P.M, ∑ j ∈ Finset.range P.M, x i * pinnedMatrix (reducedMatrix pts P) pins i j * x j =
      (∑ i ∈ Finset.range P.M, if i ∈ pins then x i ^ 2 else 0) +
      work pts (P.prolong fun k => if k ∈ pins then 0 else x k) (P.prolong fun k => if k ∈ pins then 0 else x k) := by
  rw [← reducedOp_form h, ← Finset.sum_add_distrib]
  refine Finset.sum_congr rfl fun i hi => ?_
  rw [reducedOp_matrix h]
  by_cases hp : i ∈ pins
  · simp only [mul_zero, add_zero, pinnedMatrix, hp, true_or, if_true]
    rw [Finset.sum_eq_single i]
    · simp; ring
    · intro j _ hj; simp [Ne.symm hj]
    · intro hn; exact absurd hi hn
  · simp only [pinnedMatrix, hp, false_or, if_false, zero_add]
    rw [Finset.sum_mul (s := Finset.range P.M)]
    refine Finset.sum_congr rfl fun j _ => ?_
    by_cases hj : j ∈ pins
    · have : i ≠ j := fun he => hp (he ▸ hj)
      simp [hj, this]
    · simp only [if_neg hj]
      ring

/-- **C120.** With one DOF of every component pinned the operator is symmetric positive definite, although the unpinned one is
singular. -/
theorem C120_pinned_definite (h : Cell pts X P) (ht : Tidy P) (hc : Connected pts P) {pins : List ℕ}
    (hp : translationPins P.entries d d = .ok pins) :
    (∀ i < P.M, ∀ j < P.M, pinnedMatrix (reducedMatrix pts P) pins i j = pinnedMatrix (reducedMatrix pts P) pins j i) ∧
    ∀ x : ℕ → ℝ, (∃ j < P.M, x j ≠ 0) →
      0 < ∑ i ∈ Finset.range P.M, ∑ j ∈ Finset.range P.M, x i * pinnedMatrix (reducedMatrix pts P) pins i j * x j := by
  refine ⟨fun i hi j hj => pinnedMatrix_symm h pins hi hj, fun x hx => ?_⟩
  obtain ⟨pin, hpin, hcol⟩ := C120_pins ht
  rw [hp] at hpin
  obtain rfl : pins = List.ofFn pin := by simpa using hpin
  rw [pinned_form h]
  have ha : 0 ≤ ∑ i ∈ Finset.range P.M, if i ∈ List.ofFn pin then x i ^ 2 else 0 :=
    Finset.sum_nonneg fun i _ => by split_ifs; exacts [sq_nonneg _, le_refl _]
  have hb := work_nonneg h.elastic h.weight (P.prolong fun k => if k ∈ List.ofFn pin then 0 else x k)
  rcases (add_nonneg ha hb).lt_or_eq with hlt | heq
  · exact hlt
  exfalso
  have ha0 : (∑ i ∈ Finset.range P.M, if i ∈ List.ofFn pin then x i ^ 2 else 0) = 0 := by linarith
  have hb0 : work pts (P.prolong fun k => if k ∈ List.ofFn pin then 0 else x k)
      (P.prolong fun k => if k ∈ List.ofFn pin then 0 else x k) = 0 := by linarith
  rw [Finset.sum_eq_zero_iff_of_nonneg fun i _ => by split_ifs; exacts [sq_nonneg _, le_refl _]] at ha0
  obtain ⟨j, hj, hne⟩ := hx
  apply hne
  by_cases hjp : j ∈ List.ofFn pin
  · have := ha0 j (Finset.mem_range.2 hj)
    simpa [hjp] using this
  · obtain ⟨n, hn, i, rfl⟩ := ht.onto j hj
    obtain ⟨m, hm, hmc⟩ := hcol i
    have := hc _ (prolong_periodic P _) hb0 n hn m hm i
    simp only [Tie.prolong, if_neg hjp] at this
    rw [this, ← hmc, if_pos (by rw [List.mem_ofFn]; exact ⟨i, rfl⟩)]

/-- The translation in one direction. -/
theorem translation_work (h : Cell pts X P) (c : Fin d) (u : Field d) : work pts u (fun _ i => if i = c then 1 else 0) = 0 := by
  unfold work
  refine List.sum_eq_zero fun x hx => ?_
  obtain ⟨q, hq, rfl⟩ := List.mem_map.1 hx
  have : gradAt q (fun _ i => if i = c then (1 : ℝ) else 0) = 0 := by
    funext i j
    simp only [gradAt, List.sum_map_mul_left, h.unity q hq, mul_zero]
    rfl
  rw [this, ddot_zero_right, mul_zero]

/-- A solution of the pinned system solves the whole singular system. -/
theorem pinned_solves (h : Cell pts X P) (ht : Tidy P) {pins : List ℕ} (hp : translationPins P.entries d d = .ok pins) (um : Field d)
    {x : ℕ → ℝ} (hx : ∀ i < P.M, ∑ j ∈ Finset.range P.M, pinnedMatrix (reducedMatrix pts P) pins i j * x j = pinnedRhs pts P pins um i) :
    ∀ k < P.M, reducedOp pts P x k = caseRhs pts P um k := by
  obtain ⟨pin, hpin, hcol⟩ := C120_pins ht
  rw [hp] at hpin
  obtain rfl : pins = List.ofFn pin := by simpa using hpin
  have hmem : ∀ c, pin c ∈ List.ofFn pin := fun c => by rw [List.mem_ofFn]; exact ⟨c, rfl⟩
  have hlt : ∀ c, pin c < P.M := by
    intro c
    obtain ⟨n, hn, h1⟩ := hcol c
    rw [h1]
    exact h.range n hn c
  have hx0 : ∀ c, x (pin c) = 0 := by
    intro c
    have := hx _ (hlt c)
    simp only [pinnedMatrix, hmem c, true_or, if_true, pinnedRhs] at this
    rw [Finset.sum_eq_single (pin c)] at this
    · simpa using this
    · intro j _ hj; simp [Ne.symm hj]
    · intro hn; exact absurd (Finset.mem_range.2 (hlt c)) hn
  have hoff : ∀ k < P.M, k ∉ List.ofFn pin → reducedOp pts P x k = caseRhs pts P um k := by
    intro k hk hkp
    have := hx k hk
    simp only [pinnedRhs, if_neg hkp] at this
    rw [← this, reducedOp_matrix h]
    refine Finset.sum_congr rfl fun j _ => ?_
    simp only [pinnedMatrix, hkp, false_or]
    by_cases hj : j ∈ List.ofFn pin
    · obtain ⟨c, rfl⟩ := (List.mem_ofFn).1 hj
      rw [hx0 c, mul_zero, mul_zero]
    · rw [if_neg hj]
  intro k hk
  by_cases hkp : k ∈ List.ofFn pin
  swap
  · exact hoff k hk hkp
  obtain ⟨c, rfl⟩ := (List.mem_ofFn).1 hkp
  -- test with the translation in direction `c`
  classical
  let t : ℕ → ℝ := fun k => if ∃ n < P.N, P.col n c = k then 1 else 0
  have htr : ∀ n < P.N, ∀ i, P.prolong t n i = if i = c then 1 else 0 := by
    intro n hn i
    simp only [Tie.prolong, t]
    by_cases hic : i = c
    · rw [if_pos ⟨n, hn, by rw [hic]⟩, if_pos hic]
    · rw [if_neg, if_neg hic]
      rintro ⟨m, hm, he⟩
      exact hic (ht.separate m hm n hn c i he).symm
  have h1 : ∑ k ∈ Finset.range P.M, (reducedOp pts P x k - caseRhs pts P um k) * t k = 0 := by
    have e1 := restrict_work h.nodes h.range (P.prolong x) t
    have e2 := restrict_work h.nodes h.range um t
    rw [work_congr h.nodes (fun _ _ _ => rfl) htr, translation_work h] at e1 e2
    simp only [reducedOp, caseRhs, sub_neg_eq_add, add_mul, Finset.sum_add_distrib, e1, e2, add_zero]
  rw [Finset.sum_eq_single (pin c)] at h1
  · have : t (pin c) = 1 := by
      obtain ⟨n, hn, he⟩ := hcol c
      simp only [t]
      rw [if_pos ⟨n, hn, he.symm⟩]
    rw [this, mul_one] at h1
    linarith
  · intro j hj hne
    by_cases hjp : j ∈ List.ofFn pin
    · obtain ⟨c', rfl⟩ := (List.mem_ofFn).1 hjp
      have : t (pin c') = 0 := by
        simp only [t]
        rw [if_neg]
        rintro ⟨n, hn, he⟩
        obtain ⟨m, hm, he'⟩ := hcol c'
        apply hne
        rw [ht.separate n hn m hm c c' (he.trans he')]
      rw [this, mul_zero]
    · rw [hoff j (Finset.mem_range.1 hj) hjp, sub_self, zero_mul]
  · intro hn
    exact absurd (Finset.mem_range.2 (hlt c)) hn

theorem zeroMean_eq (N : ℕ) (f : Field d) : zeroMean N f = f + ∑ c, (-(∑ m ∈ Finset.range N, f m c) / N) • fun _ i => if i = c then (1 : ℝ) else 0 := by
  funext n i
  simp only [zeroMean, Pi.add_apply, Finset.sum_apply, Pi.smul_apply, smul_eq_mul, mul_ite, mul_one, mul_zero, Finset.sum_ite_eq,
    Finset.mem_univ, if_true]
  ring

theorem work_sum_left (h : Cell pts X P) {ι : Type*} (s : Finset ι) (c : ι → ℝ) (u : ι → Field d) (v : Field d) :
    work pts (∑ k ∈ s, c k • u k) v = ∑ k ∈ s, c k * work pts (u k) v := by
  classical
  induction s using Finset.induction_on with
  | empty =>
    have : work pts ((0 : ℝ) • (0 : Field d)) v = 0 := by rw [work_smul_left h.elastic, zero_mul]
    simpa using this
  | insert a s ha ih => rw [Finset.sum_insert ha, Finset.sum_insert ha, work_add_left h.elastic, work_smul_left h.elastic, ih]

theorem equilibrium_recentre (h : Cell pts X P) (ht : Tidy P) (E : Matrix (Fin d) (Fin d) ℝ) {x : ℕ → ℝ}
    (hu : Equilibrium pts X P E (affine X E + P.prolong x)) : Equilibrium pts X P E (affine X E + zeroMean P.N (P.prolong x)) := by
  refine ⟨fun n hn m hm i j hc => ?_, fun v hv => ?_⟩
  · obtain rfl := ht.separate n hn m hm i j hc
    simp [affine, zeroMean, Tie.prolong, hc]
  · rw [zeroMean_eq, ← add_assoc, work_add_left h.elastic, hu.balance v hv, zero_add, work_sum_left h]
    refine Finset.sum_eq_zero fun c _ => ?_
    rw [work_comm h.elastic, translation_work h, mul_zero]

section direct
variable {m : ℕ} {pairs : Fin m → Fin d × Fin d} {solve : Solver} {dsolve : DirectSolver} {r r' : Result d}

theorem direct_cases {pins : List ℕ} (hp : translationPins P.entries d d = .ok pins)
    (hr : homogenizeDirect d dsolve pts P X = .ok r) : homogenize d pts X (directCase dsolve pts P pins) = .ok r := by
  unfold homogenizeDirect at hr
  split_ifs at hr with hd
  rw [hp] at hr
  exact hr

/-- **C120.** On the direct path too, every total displacement is the affine field plus a periodic fluctuation, in equilibrium: the
pins only choose the translation. -/
theorem C120_equilibrium (hL : Layout d m pairs) (h : Cell pts X P) (ht : Tidy P) (hc : Connected pts P) (hs : ExactDirect P.M dsolve)
    (hr : homogenizeDirect d dsolve pts P X = .ok r) (k : Fin m) :
    Equilibrium pts X P (strain pairs (Pi.single k 1)) (r.uTotals.getD k 0) := by
  obtain ⟨pin, hpin, _⟩ := C120_pins ht
  have hr' := direct_cases hpin hr
  rw [(case_data hL hr' k).2.1]
  have hd := C120_pinned_definite h ht hc hpin
  have hx := pinned_solves h ht hpin (affine X (strain pairs (Pi.single k 1)))
    (hs _ (pinnedRhs pts P (List.ofFn pin) (affine X (strain pairs (Pi.single k 1)))) hd.1 hd.2)
  exact equilibrium_recentre h ht _ (equilibrium_of_reduced h _ hx)

/-- **C120.** The direct path and the matrix-free path give the same `C_hom`. -/
theorem C120_same_stiffness (hL : Layout d m pairs) (h : Cell pts X P) (ht : Tidy P) (hc : Connected pts P)
    (hs : Exact P.M solve) (hs' : ExactDirect P.M dsolve)
    (hr : homogenize d pts X (krylovCase solve pts P) = .ok r) (hr' : homogenizeDirect d dsolve pts P X = .ok r') (i k : Fin m) :
    entry r' i k = entry r i k := by
  obtain ⟨pin, hpin, _⟩ := C120_pins ht
  rw [(case_data hL (direct_cases hpin hr') k).2.2 i, (case_data hL hr k).2.2 i,
    meanStress_unique h (C120_equilibrium hL h ht hc hs' hr' k) (C118_equilibrium hL h hs hr k)]

/-- **C120.** The direct path succeeds on every such cell. -/
theorem C120_total (hL : Layout d m pairs) (ht : Tidy P) : ∃ r, homogenizeDirect d dsolve pts P X = .ok r := by
  obtain ⟨pin, hpin, _⟩ := C120_pins ht
  unfold homogenizeDirect homogenize
  rw [hpin]
  cases hL <;> exact ⟨_, rfl⟩

/-- **C120.** The fluctuations of the direct path have zero nodal mean in every component. -/
theorem C120_zero_mean (hL : Layout d m pairs) (ht : Tidy P) (hr : homogenizeDirect d dsolve pts P X = .ok r) (k : Fin m) (i : Fin d) :
    ∑ n ∈ Finset.range P.N, (r.uTotals.getD k 0 n i - r.uMacros.getD k 0 n i) = 0 := by
  obtain ⟨pin, hpin, _⟩ := C120_pins ht
  have hcd := case_data hL (direct_cases hpin hr) k
  rw [hcd.1, hcd.2.1]
  have hN : (P.N : ℝ) ≠ 0 := Nat.cast_ne_zero.2 ht.nonempty.ne'
  simp only [directCase, add_sub_cancel_left, zeroMean, Finset.sum_sub_distrib, Finset.sum_const, Finset.card_range, nsmul_eq_mul]
  field_simp
  ring

end direct

/-- **C120.** Whatever the prolongation, the pins are `dim` distinct reduced unknowns or the construction is refused with
ValueError; so is any other dimension than two or three. -/
theorem C120_refusals {d : ℕ} (entries : List (ℕ × ℕ)) (vec dim : ℕ) (solve : DirectSolver) (pts : List (HPoint d)) (P : Tie d)
    (X : Field d) :
    (∀ e, translationPins entries vec dim = .error e → e = .valueError) ∧
    (∀ pins, translationPins entries vec dim = .ok pins → pins.Nodup ∧ pins.length = dim) ∧
    (dim ≠ 2 → dim ≠ 3 → homogenizeDirect dim solve pts P X = .error .valueError) := by
  have hm : ∀ (l : List ℕ) e, (l.mapM fun c =>
      if ((entries.filter fun e => e.1 % vec == c).map (·.2)).isEmpty then Except.error PyErr.valueError
      else .ok (minOf ((entries.filter fun e => e.1 % vec == c).map (·.2)))) = .error e → e = .valueError := by
    intro l
    induction l with
    | nil => intro e h; cases h
    | cons a l ih =>
      intro e h
      rw [List.mapM_cons] at h
      split_ifs at h with h0
      · cases h; rfl
      · cases h1 : (l.mapM fun c =>
          if ((entries.filter fun e => e.1 % vec == c).map (·.2)).isEmpty then Except.error PyErr.valueError
          else .ok (minOf ((entries.filter fun e => e.1 % vec == c).map (·.2)))) with
        | error e' =>
          rw [h1] at h
          cases h
          exact ih _ h1
        | ok xs => rw [h1] at h; cases h
  unfold translationPins
  simp only [bind, Except.bind]
  refine ⟨fun e h => ?_, fun pins h => ?_, fun h2 h3 => by unfold homogenizeDirect; rw [if_pos ⟨h2, h3⟩]⟩
  · split at h
    · next e' he => cases h; exact hm _ _ he
    · split_ifs at h
      cases h; rfl
  · split at h
    · cases h
    · split_ifs at h with h0
      cases h
      exact ⟨List.nodup_dedup _, by simpa using h0⟩

/-- Two components tied to one unknown leave too few pins. -/
example : translationPins [(0, 0), (1, 0)] 2 2 = .error .valueError := by decide

/-! ## Gradients -/

/-- **C121.** The backward pass of the factor-once solve is the derivative of the forward pass: along any differentiable change of
the matrix and of the right-hand sides, the derivative of `Σ x̄ · x` is the pairing with the cotangents it returns. -/
theorem C121_solve_gradient {M c : ℕ} {dsolve : DirectSolver} (hs : ExactDirect M dsolve) {A : ℝ → ℕ → ℕ → ℝ} {A' : ℕ → ℕ → ℝ}
    {x b : Fin c → ℝ → ℕ → ℝ} {x' b' : Fin c → ℕ → ℝ} {t₀ : ℝ} (xbar : Fin c → ℕ → ℝ)
    (hsym : ∀ i < M, ∀ j < M, A t₀ i j = A t₀ j i)
    (hpos : ∀ y : ℕ → ℝ, (∃ j < M, y j ≠ 0) → 0 < ∑ i ∈ Finset.range M, ∑ j ∈ Finset.range M, y i * A t₀ i j * y j)
    (hsolve : ∀ s t, ∀ i < M, ∑ j ∈ Finset.range M, A t i j * x s t j = b s t i)
    (hA : ∀ i j, HasDerivAt (fun t => A t i j) (A' i j) t₀) (hb : ∀ s i, HasDerivAt (fun t => b s t i) (b' s i) t₀)
    (hx : ∀ s i, HasDerivAt (fun t => x s t i) (x' s i) t₀) :
    HasDerivAt (fun t => ∑ s, ∑ i ∈ Finset.range M, xbar s i * x s t i)
      (∑ i ∈ Finset.range M, ∑ j ∈ Finset.range M,
          (solveBwd dsolve (A t₀) (List.ofFn fun s => x s t₀) (List.ofFn xbar)).1 i j * A' i j +
        ∑ s : Fin c, ∑ i ∈ Finset.range M,
          ((solveBwd dsolve (A t₀) (List.ofFn fun s => x s t₀) (List.ofFn xbar)).2.getD s 0) i * b' s i) t₀ := by
  have hlam : ∀ s, ∀ i < M, ∑ j ∈ Finset.range M, A t₀ i j * dsolve (A t₀) (xbar s) j = xbar s i := fun s =>
    hs (A t₀) (xbar s) hsym hpos
  have hder : ∀ s, ∀ i < M, ∑ j ∈ Finset.range M, (A' i j * x s t₀ j + A t₀ i j * x' s j) = b' s i := by
    intro s i hi
    have h1 : HasDerivAt (fun t => ∑ j ∈ Finset.range M, A t i j * x s t j)
        (∑ j ∈ Finset.range M, (A' i j * x s t₀ j + A t₀ i j * x' s j)) t₀ :=
      HasDerivAt.fun_sum fun j _ => (hA i j).mul (hx s j)
    have h2 : (fun t => ∑ j ∈ Finset.range M, A t i j * x s t j) = fun t => b s t i := by
      funext t
      exact hsolve s t i hi
    rw [h2] at h1
    exact h1.unique (hb s i)
  have hmain : HasDerivAt (fun t => ∑ s, ∑ i ∈ Finset.range M, xbar s i * x s t i)
      (∑ s, ∑ i ∈ Finset.range M, xbar s i * x' s i) t₀ :=
    HasDerivAt.fun_sum fun s _ => HasDerivAt.fun_sum fun i _ => (hx s i).const_mul _
  refine hmain.congr_deriv ?_
  have hone : ∀ s, ∑ i ∈ Finset.range M, xbar s i * x' s i =
      ∑ i ∈ Finset.range M, dsolve (A t₀) (xbar s) i * b' s i -
      ∑ i ∈ Finset.range M, ∑ j ∈ Finset.range M, dsolve (A t₀) (xbar s) i * x s t₀ j * A' i j := by
    intro s
    have h1 : ∑ i ∈ Finset.range M, xbar s i * x' s i =
        ∑ i ∈ Finset.range M, ∑ j ∈ Finset.range M, A t₀ i j * dsolve (A t₀) (xbar s) j * x' s i := by
      refine Finset.sum_congr rfl fun i hi => ?_
      rw [← hlam s i (Finset.mem_range.1 hi), Finset.sum_mul]
    rw [h1, Finset.sum_comm, ← Finset.sum_sub_distrib]
    refine Finset.sum_congr rfl fun j hj => ?_
    rw [← hder s j (Finset.mem_range.1 hj), Finset.mul_sum, ← Finset.sum_sub_distrib]
    refine Finset.sum_congr rfl fun i hi => ?_
    rw [hsym i (Finset.mem_range.1 hi) j (Finset.mem_range.1 hj)]
    ring
  rw [Finset.sum_congr rfl fun s _ => hone s, Finset.sum_sub_distrib, sub_eq_neg_add]
  congr 1
  · rw [Finset.sum_comm, ← Finset.sum_neg_distrib]
    refine Finset.sum_congr rfl fun i _ => ?_
    rw [Finset.sum_comm, ← Finset.sum_neg_distrib]
    refine Finset.sum_congr rfl fun j _ => ?_
    simp only [solveBwd, List.map_ofFn, Function.comp_def]
    have hz : ∀ (n : ℕ) (f g : Fin n → ℕ → ℝ), (((List.ofFn f).zip (List.ofFn g)).map fun lx => lx.1 i * lx.2 j).sum =
        ∑ s, f s i * g s j := by
      intro n f g
      induction n with
      | zero => simp
      | succ n ih => simp [List.ofFn_succ, Fin.sum_univ_succ, ih]
    rw [hz, neg_mul, Finset.sum_mul]
  · refine Finset.sum_congr rfl fun s _ => Finset.sum_congr rfl fun i _ => ?_
    simp [solveBwd, List.getD_eq_getElem?_getD]

/-- The cell with other materials. -/
def Spec.Homog.withStress (pts : List (HPoint d)) (s : HPoint d → Matrix (Fin d) (Fin d) ℝ → Matrix (Fin d) (Fin d) ℝ) : List (HPoint d) :=
  pts.map fun q => { q with stress := s q }

/-- The matrix units. -/
def unitMat (k l : Fin d) : Matrix (Fin d) (Fin d) ℝ := Matrix.of fun a b => if a = k ∧ b = l then 1 else 0

theorem matrix_basis (A : Matrix (Fin d) (Fin d) ℝ) : A = ∑ k, ∑ l, A k l • unitMat k l := by
  ext i j
  rw [Matrix.sum_apply, Finset.sum_eq_single i]
  · rw [Matrix.sum_apply, Finset.sum_eq_single j]
    · simp [unitMat]
    · intro l _ hl; simp [unitMat, Ne.symm hl]
    · simp
  · intro k _ hk
    rw [Matrix.sum_apply]
    exact Finset.sum_eq_zero fun l _ => by simp [unitMat, Ne.symm hk]
  · simp

theorem elastic_sum {σ : Matrix (Fin d) (Fin d) ℝ → Matrix (Fin d) (Fin d) ℝ} (h : Elastic σ) {ι : Type*} (s : Finset ι)
    (f : ι → Matrix (Fin d) (Fin d) ℝ) : σ (∑ k ∈ s, f k) = ∑ k ∈ s, σ (f k) := by
  classical
  induction s using Finset.induction_on with
  | empty =>
    have := h.smul 0 0
    simpa using this
  | insert a s ha ih => rw [Finset.sum_insert ha, Finset.sum_insert ha, h.add, ih]

/-- Stress of a moving strain in a moving material. -/
theorem stress_deriv {s : ℝ → Matrix (Fin d) (Fin d) ℝ → Matrix (Fin d) (Fin d) ℝ} (h : ∀ t, Elastic (s t))
    {s' : Matrix (Fin d) (Fin d) ℝ → Matrix (Fin d) (Fin d) ℝ} {t₀ : ℝ} (hs : ∀ A i j, HasDerivAt (fun t => s t A i j) (s' A i j) t₀)
    {G : ℝ → Matrix (Fin d) (Fin d) ℝ} {G' : Matrix (Fin d) (Fin d) ℝ} (hG : ∀ i j, HasDerivAt (fun t => G t i j) (G' i j) t₀)
    (i j : Fin d) : HasDerivAt (fun t => s t (G t) i j) (s' (G t₀) i j + s t₀ G' i j) t₀ := by
  obtain ⟨B, hB⟩ : ∃ B : Fin d → Fin d → Matrix (Fin d) (Fin d) ℝ, ∀ A : Matrix (Fin d) (Fin d) ℝ, A = ∑ k, ∑ l, A k l • B k l :=
    ⟨unitMat, matrix_basis⟩
  have hst : ∀ t A, s t A i j = ∑ k, ∑ l, A k l * s t (B k l) i j := by
    intro t A
    conv_lhs => rw [hB A]
    rw [elastic_sum (h t), Matrix.sum_apply]
    refine Finset.sum_congr rfl fun k _ => ?_
    rw [elastic_sum (h t), Matrix.sum_apply]
    refine Finset.sum_congr rfl fun l _ => ?_
    rw [(h t).smul, Matrix.smul_apply, smul_eq_mul]
  have hs' : ∀ A, s' A i j = ∑ k, ∑ l, A k l * s' (B k l) i j := by
    intro A
    have h1 : HasDerivAt (fun t => ∑ k, ∑ l, A k l * s t (B k l) i j) (∑ k, ∑ l, A k l * s' (B k l) i j) t₀ :=
      HasDerivAt.fun_sum fun k _ => HasDerivAt.fun_sum fun l _ => (hs (B k l) i j).const_mul _
    have h2 := hs A i j
    rw [show (fun t => s t A i j) = fun t => ∑ k, ∑ l, A k l * s t (B k l) i j from funext fun t => hst t A] at h2
    exact h2.unique h1
  have h1 : HasDerivAt (fun t => ∑ k, ∑ l, G t k l * s t (B k l) i j)
      (∑ k, ∑ l, (G' k l * s t₀ (B k l) i j + G t₀ k l * s' (B k l) i j)) t₀ :=
    HasDerivAt.fun_sum fun k _ => HasDerivAt.fun_sum fun l _ => (hG k l).mul (hs (B k l) i j)
  rw [show (fun t => s t (G t) i j) = fun t => ∑ k, ∑ l, G t k l * s t (B k l) i j from funext fun t => hst t (G t)]
  refine h1.congr_deriv ?_
  rw [hst t₀ G', hs' (G t₀)]
  simp only [Finset.sum_add_distrib]
  ring

theorem list_sum_deriv {α : Type*} (l : List α) (f : ℝ → α → ℝ) (f' : α → ℝ) {t₀ : ℝ} (h : ∀ a ∈ l, HasDerivAt (fun t => f t a) (f' a) t₀) :
    HasDerivAt (fun t => (l.map (f t)).sum) (l.map f').sum t₀ := by
  induction l with
  | nil => simpa using hasDerivAt_const t₀ (0 : ℝ)
  | cons a l ih =>
    simp only [List.map_cons, List.sum_cons]
    exact (h a (by simp)).add (ih fun b hb => h b (by simp [hb]))

theorem work_deriv {s : ℝ → HPoint d → Matrix (Fin d) (Fin d) ℝ → Matrix (Fin d) (Fin d) ℝ} (h : ∀ t, ∀ q ∈ pts, Elastic (s t q))
    {s' : HPoint d → Matrix (Fin d) (Fin d) ℝ → Matrix (Fin d) (Fin d) ℝ} {t₀ : ℝ}
    (hs : ∀ q ∈ pts, ∀ A i j, HasDerivAt (fun t => s t q A i j) (s' q A i j) t₀)
    {u : ℝ → Field d} {u' : Field d} (hu : ∀ n i, HasDerivAt (fun t => u t n i) (u' n i) t₀) (v : Field d) :
    HasDerivAt (fun t => work (withStress pts (s t)) (u t) v)
      ((pts.map fun q => q.w * ddot (s' q (gradAt q (u t₀))) (gradAt q v)).sum + work (withStress pts (s t₀)) u' v) t₀ := by
  have hG : ∀ q : HPoint d, ∀ i j, HasDerivAt (fun t => gradAt q (u t) i j) (gradAt q u' i j) t₀ := by
    intro q i j
    exact list_sum_deriv q.nodes (fun t a => u t a.1 i * a.2 j) _ fun a _ => (hu a.1 i).mul_const _
  have hw : ∀ t w, work (withStress pts (s t)) w v = (pts.map fun q => q.w * ddot (s t q (gradAt q w)) (gradAt q v)).sum := by
    intro t w
    simp only [work, withStress, List.map_map, Function.comp_def]
    rfl
  simp only [hw]
  have h1 : HasDerivAt (fun t => (pts.map fun q => q.w * ddot (s t q (gradAt q (u t))) (gradAt q v)).sum)
      (pts.map fun q => q.w * ddot (s' q (gradAt q (u t₀)) + s t₀ q (gradAt q u')) (gradAt q v)).sum t₀ := by
    refine list_sum_deriv pts (fun t q => q.w * ddot (s t q (gradAt q (u t))) (gradAt q v)) _ fun q hq => ?_
    refine HasDerivAt.const_mul _ ?_
    unfold ddot
    exact HasDerivAt.fun_sum fun i _ => HasDerivAt.fun_sum fun j _ =>
      (stress_deriv (fun t => h t q hq) (hs q hq) (hG q) i j).mul_const _
  refine h1.congr_deriv ?_
  rw [← List.sum_map_add]
  congr 1
  refine List.map_congr_left fun q _ => ?_
  rw [ddot_add_left, mul_add]

/-- **C121.** The sensitivity of every entry of `C_hom` to a material parameter is
`∂C_ik = ⟨∂σ(∇u_k) : ∇u_i⟩`: no derivative of the displacements is needed. -/
theorem C121_sensitivity {m : ℕ} {pairs : Fin m → Fin d × Fin d} (hL : Layout d m pairs)
    {s : ℝ → HPoint d → Matrix (Fin d) (Fin d) ℝ → Matrix (Fin d) (Fin d) ℝ}
    {s' : HPoint d → Matrix (Fin d) (Fin d) ℝ → Matrix (Fin d) (Fin d) ℝ} {t₀ : ℝ}
    (h : ∀ t, Cell (withStress pts (s t)) X P) {solve : Solver} (hx : Exact P.M solve) {r : ℝ → Result d}
    (hr : ∀ t, homogenize d (withStress pts (s t)) X (krylovCase solve (withStress pts (s t)) P) = .ok (r t))
    (hs : ∀ q ∈ pts, ∀ A i j, HasDerivAt (fun t => s t q A i j) (s' q A i j) t₀)
    {k : Fin m} {u' : Field d} (hu : ∀ n i, HasDerivAt (fun t => (r t).uTotals.getD k 0 n i) (u' n i) t₀) (i : Fin m) :
    HasDerivAt (fun t => entry (r t) i k)
      ((pts.map fun q => q.w * ddot (s' q (gradAt q ((r t₀).uTotals.getD k 0))) (gradAt q ((r t₀).uTotals.getD i 0))).sum /
        (pts.map (·.w)).sum) t₀ := by
  have hV : ∀ t, volume (withStress pts (s t)) = (pts.map (·.w)).sum := by
    intro t
    simp [volume, withStress, List.map_map, Function.comp_def]
  have hV0 : 0 < (pts.map (·.w)).sum := by rw [← hV t₀]; exact (h t₀).volume
  have heq := fun t => C118_equilibrium hL (h t) hx (hr t)
  have hE : ∀ t, entry (r t) i k = work (withStress pts (s t)) ((r t).uTotals.getD k 0) ((r t₀).uTotals.getD i 0) / (pts.map (·.w)).sum := by
    intro t
    rw [hill (h t) (heq t k) (heq t₀ i).periodic, hV, ddot_strain pairs (meanStress_symm (h t).elastic _), (case_data hL (hr t) k).2.2 i,
      mul_div_cancel_left₀ _ hV0.ne', Finset.sum_eq_single i]
    · simp
    · intro l _ hl; simp [Pi.single_eq_of_ne hl]
    · simp
  have hel : ∀ t, ∀ q ∈ pts, Elastic (s t q) := fun t q hq =>
    (h t).elastic { q with stress := s t q } (List.mem_map.2 ⟨q, hq, rfl⟩)
  have hw := work_deriv hel hs hu ((r t₀).uTotals.getD i 0)
  have hp : Periodic P u' := by
    intro n hn m hm a b hc
    have h1 : ∀ t, (r t).uTotals.getD k 0 n a - (r t).uTotals.getD k 0 m b =
        (r t₀).uTotals.getD k 0 n a - (r t₀).uTotals.getD k 0 m b := by
      intro t
      have e1 := (heq t k).periodic n hn m hm a b hc
      have e2 := (heq t₀ k).periodic n hn m hm a b hc
      simp only at e1 e2
      linarith
    have h2 := (hu n a).sub (hu m b)
    have h3 : ((fun t => (r t).uTotals.getD k 0 n a) - fun t => (r t).uTotals.getD k 0 m b) =
        fun _ => (r t₀).uTotals.getD k 0 n a - (r t₀).uTotals.getD k 0 m b := funext fun t => h1 t
    rw [h3] at h2
    have := h2.unique (hasDerivAt_const t₀ _)
    linarith
  rw [work_comm (h t₀).elastic u', (heq t₀ i).balance u' hp, add_zero] at hw
  simp only [hE]
  exact hw.div_const _

/-- **C121.** The backward pass of the matrix-free path is exact: for every functional of the displacement that does not see
translations, the cotangent returned for a material parameter is the derivative along the solutions. -/
theorem C121_adjoint {s : ℝ → HPoint d → Matrix (Fin d) (Fin d) ℝ → Matrix (Fin d) (Fin d) ℝ}
    {s' : HPoint d → Matrix (Fin d) (Fin d) ℝ → Matrix (Fin d) (Fin d) ℝ} {t₀ : ℝ}
    (h : ∀ t, Cell (withStress pts (s t)) X P) {solve : Solver} (hx : Exact P.M solve) {E : Matrix (Fin d) (Fin d) ℝ}
    (hs : ∀ q ∈ pts, ∀ A i j, HasDerivAt (fun t => s t q A i j) (s' q A i j) t₀)
    {u : ℝ → Field d} {u' dR : Field d} (heq : ∀ t, Equilibrium (withStress pts (s t)) X P E (u t))
    (hu : ∀ n i, HasDerivAt (fun t => u t n i) (u' n i) t₀)
    (hR : ∀ n i, HasDerivAt (fun t => Homog.residual (withStress pts (s t)) (u t₀) n i) (dR n i) t₀) (v : Field d)
    (hv : ∀ f, Periodic P f → work (withStress pts (s t₀)) f f = 0 → ∑ n ∈ Finset.range P.N, ∑ i, v n i * f n i = 0) :
    HasDerivAt (fun t => ∑ n ∈ Finset.range P.N, ∑ i, v n i * u t n i)
      (paramCotangent P (adjointField solve (withStress pts (s t₀)) P v) dR) t₀ := by
  have h0 := h t₀
  -- the adjoint system is solvable
  have hsol : ∃ y, ∀ k < P.M, reducedOp (withStress pts (s t₀)) P y k = P.restrict v k := by
    classical
    let ext : (Fin P.M → ℝ) → ℕ → ℝ := fun x k => if hk : k < P.M then x ⟨k, hk⟩ else 0
    have hadd : ∀ x y, ext (x + y) = ext x + ext y := by
      intro x y
      funext k
      simp only [ext, Pi.add_apply]
      split_ifs <;> simp
    have hsmul : ∀ (c : ℝ) x, ext (c • x) = c • ext x := by
      intro c x
      funext k
      simp only [ext, Pi.smul_apply, smul_eq_mul]
      split_ifs <;> simp
    let T : (Fin P.M → ℝ) →ₗ[ℝ] (Fin P.M → ℝ) :=
      { toFun := fun x k => reducedOp (withStress pts (s t₀)) P (ext x) k
        map_add' := fun x y => by funext k; rw [hadd, reducedOp_add h0]; rfl
        map_smul' := fun c x => by funext k; rw [hsmul, reducedOp_smul h0]; rfl }
    have hext : ∀ (r : ℕ → ℝ) (y : Fin P.M → ℝ), ∑ k : Fin P.M, r k * y k = ∑ k ∈ Finset.range P.M, r k * ext y k := by
      intro r y
      rw [Finset.sum_range]
      refine Finset.sum_congr rfl fun k _ => ?_
      simp [ext]
    have hT : ∀ x y, ∑ k, T x k * y k = work (withStress pts (s t₀)) (P.prolong (ext x)) (P.prolong (ext y)) := by
      intro x y
      rw [← reducedOp_form h0]
      exact hext (reducedOp (withStress pts (s t₀)) P (ext x)) y
    obtain ⟨x, hx⟩ := solvable_of_orthogonal T (fun x y => by rw [hT, hT, work_comm h0.elastic]) (fun k => P.restrict v k) (by
      intro z hz
      have hz0 : work (withStress pts (s t₀)) (P.prolong (ext z)) (P.prolong (ext z)) = 0 := by
        rw [← hT, hz]; simp
      rw [hext (P.restrict v) z, restrict_dot h0.range]
      exact hv _ (prolong_periodic P _) hz0)
    exact ⟨ext x, fun k hk => congrFun hx ⟨k, hk⟩⟩
  have hlam := hx _ _ (reducedOp_semidefinite h0) hsol
  set y := solve (reducedOp (withStress pts (s t₀)) P) (P.restrict v) with hy
  have hel : ∀ t, ∀ q ∈ pts, Elastic (s t q) := fun t q hq =>
    (h t).elastic { q with stress := s t q } (List.mem_map.2 ⟨q, hq, rfl⟩)
  -- the solution moves periodically
  have hp : Periodic P u' := by
    intro n hn m hm a b hc
    have h1 : ∀ t, u t n a - u t m b = u t₀ n a - u t₀ m b := by
      intro t
      have e1 := (heq t).periodic n hn m hm a b hc
      have e2 := (heq t₀).periodic n hn m hm a b hc
      simp only at e1 e2
      linarith
    have h2 := (hu n a).sub (hu m b)
    have h3 : ((fun t => u t n a) - fun t => u t m b) = fun _ => u t₀ n a - u t₀ m b := funext fun t => h1 t
    rw [h3] at h2
    have := h2.unique (hasDerivAt_const t₀ _)
    linarith
  -- equilibrium stays satisfied
  have hbal : (pts.map fun q => q.w * ddot (s' q (gradAt q (u t₀))) (gradAt q (P.prolong y))).sum +
      work (withStress pts (s t₀)) u' (P.prolong y) = 0 := by
    have h1 := work_deriv hel hs hu (P.prolong y)
    have h2 : (fun t => work (withStress pts (s t)) (u t) (P.prolong y)) = fun _ => 0 :=
      funext fun t => (heq t).balance _ (prolong_periodic P y)
    rw [h2] at h1
    exact h1.unique (hasDerivAt_const t₀ _)
  -- the partial derivative of the residual
  have hdR : ∑ n ∈ Finset.range P.N, ∑ i, dR n i * P.prolong y n i =
      (pts.map fun q => q.w * ddot (s' q (gradAt q (u t₀))) (gradAt q (P.prolong y))).sum := by
    have h1 : HasDerivAt (fun t => ∑ n ∈ Finset.range P.N, ∑ i, Homog.residual (withStress pts (s t)) (u t₀) n i * P.prolong y n i)
        (∑ n ∈ Finset.range P.N, ∑ i, dR n i * P.prolong y n i) t₀ :=
      HasDerivAt.fun_sum fun n _ => HasDerivAt.fun_sum fun i _ => (hR n i).mul_const _
    simp only [fun t => hresidual_work (h t).nodes (u t₀) (P.prolong y)] at h1
    have h2 := work_deriv hel hs (u := fun _ => u t₀) (u' := 0) (fun n i => by simpa using hasDerivAt_const t₀ (u t₀ n i)) (P.prolong y)
    have h3 : work (withStress pts (s t₀)) 0 (P.prolong y) = 0 := by
      have := work_smul_left h0.elastic 0 (P.prolong y) 0
      simpa using this
    rw [h3, add_zero] at h2
    exact h1.unique h2
  have hmain : HasDerivAt (fun t => ∑ n ∈ Finset.range P.N, ∑ i, v n i * u t n i) (∑ n ∈ Finset.range P.N, ∑ i, v n i * u' n i) t₀ :=
    HasDerivAt.fun_sum fun n _ => HasDerivAt.fun_sum fun i _ => (hu n i).const_mul _
  refine hmain.congr_deriv ?_
  obtain ⟨x', hx'⟩ := periodic_prolong hp
  have e1 : ∑ n ∈ Finset.range P.N, ∑ i, v n i * u' n i = work (withStress pts (s t₀)) (P.prolong y) u' := by
    rw [work_congr h0.nodes (fun _ _ _ => rfl) (fun n hn i => (hx' n hn i).symm), ← reducedOp_form h0]
    have e0 : ∑ k ∈ Finset.range P.M, reducedOp (withStress pts (s t₀)) P y k * x' k = ∑ k ∈ Finset.range P.M, P.restrict v k * x' k :=
      Finset.sum_congr rfl fun k hk => by rw [hlam k (Finset.mem_range.1 hk)]
    rw [e0, restrict_dot h0.range]
    refine Finset.sum_congr rfl fun n hn => Finset.sum_congr rfl fun i _ => ?_
    rw [hx' n (Finset.mem_range.1 hn)]
  rw [e1, work_comm h0.elastic]
  have e2 : paramCotangent P (adjointField solve (withStress pts (s t₀)) P v) dR =
      -∑ n ∈ Finset.range P.N, ∑ i, dR n i * P.prolong y n i := by
    unfold paramCotangent adjointField
    rw [← hy]
    congr 1
    exact Finset.sum_congr rfl fun n _ => Finset.sum_congr rfl fun i _ => mul_comm _ _
  rw [e2, hdR]
  linarith
/-! ## The dimension argument -/

/-- **C122** fails: `dim` defaults to 3 and is not compared with the problem. For a plane problem the call
succeeds; the rows of `C_hom` for `33` and `23` repeat the row for `22`, while the column for `33` belongs to a case without any
macroscopic displacement. -/
theorem C122_dim_unchecked (pts : List (HPoint 2)) (X : Field 2) (sc : Field 2 → Field 2) :
    ∃ r, homogenize 3 pts X sc = .ok r ∧ r.cHom.length = 6 ∧ r.uMacros.getD 2 0 = 0 ∧
      ∀ k < 6, entry r 2 k = entry r 1 k ∧ entry r 3 k = entry r 1 k := by
  refine ⟨_, rfl, by simp [transpose, voigt], ?_, ?_⟩
  · funext n i
    fin_cases i <;>
      simp [unitStrains, unitStrains3, macroDisplacement, Fin.sum_univ_three, pad]
  · intro k hk
    unfold entry
    rw [transpose_entry, transpose_entry, transpose_entry, List.getD_eq_getElem _ [] (by simpa [unitStrains, unitStrains3] using hk)]
    · simp [averageStress, voigt, sigmaAt]
    all_goals first | (simp [voigt]; done) | (simpa [unitStrains, unitStrains3] using hk)

/-! ## A laminate -/

/-- A material of shear type with modulus `c`. -/
noncomputable def exShear (c : ℝ) (A : Matrix (Fin 2) (Fin 2) ℝ) : Matrix (Fin 2) (Fin 2) ℝ := (c / 2) • (A + A.transpose)

theorem exShear_elastic {c : ℝ} (hc : 0 ≤ c) : Elastic (exShear c) where
  add A B := by
    simp only [exShear, Matrix.transpose_add, ← smul_add]
    congr 1
    abel
  smul k A := by
    simp only [exShear, Matrix.transpose_smul, ← smul_add]
    rw [smul_comm]
  symm A i j := by
    simp only [exShear, Matrix.smul_apply, Matrix.add_apply, Matrix.transpose_apply, smul_eq_mul]
    ring
  major A B := by
    simp only [ddot, exShear, Matrix.smul_apply, Matrix.add_apply, Matrix.transpose_apply, smul_eq_mul, Fin.sum_univ_two]
    ring
  nonneg A := by
    simp only [ddot, exShear, Matrix.smul_apply, Matrix.add_apply, Matrix.transpose_apply, smul_eq_mul, Fin.sum_univ_two]
    have : c / 2 * (A 0 0 + A 0 0) * A 0 0 + c / 2 * (A 0 1 + A 1 0) * A 0 1 + (c / 2 * (A 1 0 + A 0 1) * A 1 0 +
      c / 2 * (A 1 1 + A 1 1) * A 1 1) = c / 2 * (2 * A 0 0 ^ 2 + (A 0 1 + A 1 0) ^ 2 + 2 * A 1 1 ^ 2) := by ring
    rw [this]
    positivity

/-- Two square cells side by side, one quadrature point each, moduli 1 and 3. -/
noncomputable def exPts : List (HPoint 2) :=
  [⟨[(0, ![-1 / 2, -1 / 2]), (1, ![1 / 2, -1 / 2]), (4, ![1 / 2, 1 / 2]), (3, ![-1 / 2, 1 / 2])], 1, exShear 1⟩,
   ⟨[(1, ![-1 / 2, -1 / 2]), (2, ![1 / 2, -1 / 2]), (5, ![1 / 2, 1 / 2]), (4, ![-1 / 2, 1 / 2])], 1, exShear 3⟩]

/-- Their nodes: three columns, two rows. -/
def exX : Field 2 := fun n i => if i = 0 then ((n % 3 : ℕ) : ℝ) else ((n / 3 : ℕ) : ℝ)

/-- Opposite sides tied: two free nodes. -/
def exTieP : Tie 2 := ⟨6, 4, fun n i => 2 * (if n % 3 = 1 then 1 else 0) + i.1⟩

theorem exCell : Cell exPts exX exTieP where
  elastic q hq := by
    simp only [exPts, List.mem_cons, List.not_mem_nil, or_false] at hq
    rcases hq with rfl | rfl
    · exact exShear_elastic (by norm_num)
    · exact exShear_elastic (by norm_num)
  weight q hq := by
    simp only [exPts, List.mem_cons, List.not_mem_nil, or_false] at hq
    rcases hq with rfl | rfl <;> norm_num
  volume := by simp [exPts]
  nodes q hq a ha := by
    simp only [exPts, List.mem_cons, List.not_mem_nil, or_false] at hq
    rcases hq with rfl | rfl <;> simp only [List.mem_cons, List.not_mem_nil, or_false] at ha <;>
      rcases ha with rfl | rfl | rfl | rfl <;> simp [exTieP]
  unity q hq j := by
    simp only [exPts, List.mem_cons, List.not_mem_nil, or_false] at hq
    rcases hq with rfl | rfl <;> fin_cases j <;> simp <;> norm_num
  complete q hq i j := by
    simp only [exPts, List.mem_cons, List.not_mem_nil, or_false] at hq
    rcases hq with rfl | rfl <;> fin_cases i <;> fin_cases j <;> simp [exX] <;> norm_num
  range n hn i := by
    simp only [exTieP]
    split_ifs <;> omega

theorem exTidy : Tidy exTieP where
  nonempty := by simp [exTieP]
  separate n _ m _ i j h := by
    simp only [exTieP] at h
    ext
    split_ifs at h <;> omega
  onto k hk := by
    simp only [exTieP] at hk ⊢
    have : k = 0 ∨ k = 1 ∨ k = 2 ∨ k = 3 := by omega
    rcases this with rfl | rfl | rfl | rfl
    · exact ⟨0, by norm_num, 0, by simp⟩
    · exact ⟨0, by norm_num, 1, by simp⟩
    · exact ⟨1, by norm_num, 0, by simp⟩
    · exact ⟨1, by norm_num, 1, by simp⟩

theorem exPeriodic {v : Field 2} (h : Periodic exTieP v) (i : Fin 2) : v 2 i = v 0 i ∧ v 3 i = v 0 i ∧ v 5 i = v 0 i ∧ v 4 i = v 1 i :=
  ⟨h 2 (by simp [exTieP]) 0 (by simp [exTieP]) i i rfl, h 3 (by simp [exTieP]) 0 (by simp [exTieP]) i i rfl,
    h 5 (by simp [exTieP]) 0 (by simp [exTieP]) i i rfl, h 4 (by simp [exTieP]) 1 (by simp [exTieP]) i i rfl⟩

theorem exCellClosed : Closed exPts exTieP := by
  intro v hv i j
  obtain ⟨h2, h3, h5, h4⟩ := exPeriodic hv i
  fin_cases j <;> simp [exPts, gradAt, h2, h3, h4, h5] <;> ring

theorem exConnected : Connected exPts exTieP := by
  intro v hv hw
  have hp := exPeriodic hv
  have h1 : ∀ i, v 1 i = v 0 i := by
    simp only [work, exPts, gradAt, ddot, exShear, List.map_cons, List.map_nil, List.sum_cons, List.sum_nil, Fin.sum_univ_two,
      Matrix.smul_apply, Matrix.add_apply, Matrix.transpose_apply, smul_eq_mul, (hp 0).1, (hp 0).2.1, (hp 0).2.2.1, (hp 0).2.2.2, (hp 1).1,
      (hp 1).2.1, (hp 1).2.2.1, (hp 1).2.2.2, Matrix.cons_val_zero, Matrix.cons_val_one] at hw
    have h0 : (v 1 0 - v 0 0) ^ 2 * 4 + (v 1 1 - v 0 1) ^ 2 * 2 = 0 := by linarith
    have ha : (v 1 0 - v 0 0) ^ 2 = 0 := by nlinarith [sq_nonneg (v 1 0 - v 0 0), sq_nonneg (v 1 1 - v 0 1)]
    have hb : (v 1 1 - v 0 1) ^ 2 = 0 := by nlinarith [sq_nonneg (v 1 0 - v 0 0), sq_nonneg (v 1 1 - v 0 1)]
    intro i
    fin_cases i
    · exact sub_eq_zero.1 (pow_eq_zero_iff (two_ne_zero)|>.1 ha)
    · exact sub_eq_zero.1 (pow_eq_zero_iff (two_ne_zero)|>.1 hb)
  have hall : ∀ n < 6, ∀ i, v n i = v 0 i := by
    intro n hn i
    obtain ⟨h2, h3, h5, h4⟩ := hp i
    have : n = 0 ∨ n = 1 ∨ n = 2 ∨ n = 3 ∨ n = 4 ∨ n = 5 := by omega
    rcases this with rfl | rfl | rfl | rfl | rfl | rfl
    · rfl
    · exact h1 i
    · exact h2
    · exact h3
    · rw [h4, h1]
    · exact h5
  intro n hn m hm i
  rw [hall n hn, hall m hm]

open Classical in
/-- Solvers as the theorems ask for exist. -/
theorem exists_exact (M : ℕ) : ∃ solve, Exact M solve := by
  refine ⟨fun op b => if h : ∃ x, ∀ k < M, op x k = b k then h.choose else 0, fun op b _ h => ?_⟩
  simp only [dif_pos h]
  exact h.choose_spec

open Classical in
theorem exists_exactDirect (M : ℕ) : ∃ solve, ExactDirect M solve := by
  refine ⟨fun A b => if h : ∃ x : ℕ → ℝ, ∀ i < M, ∑ j ∈ Finset.range M, A i j * x j = b i then h.choose else 0, fun A b hsym hpos => ?_⟩
  have h : ∃ x : ℕ → ℝ, ∀ i < M, ∑ j ∈ Finset.range M, A i j * x j = b i := by
    let T : (Fin M → ℝ) →ₗ[ℝ] (Fin M → ℝ) := Matrix.mulVecLin (Matrix.of fun i j : Fin M => A i j)
    have hT : ∀ (x : Fin M → ℝ) (i : Fin M), T x i = ∑ j : Fin M, A i j * x j := fun x i => by
      simp [T, Matrix.mulVec, dotProduct]
    obtain ⟨x, hx⟩ := solvable_of_orthogonal T (fun x y => by
      simp only [hT, Finset.sum_mul]
      rw [Finset.sum_comm]
      refine Finset.sum_congr rfl fun i _ => Finset.sum_congr rfl fun j _ => ?_
      rw [hsym j j.2 i i.2]
      ring) (fun i => b i) (fun z hz => by
      by_contra hne
      have : ∃ j < M, (fun k => if hk : k < M then z ⟨k, hk⟩ else 0 : ℕ → ℝ) j ≠ 0 := by
        by_contra hall
        push Not at hall
        apply hne
        refine Finset.sum_eq_zero fun k _ => ?_
        have := hall k k.2
        simp only [k.2, dif_pos] at this
        rw [this, mul_zero]
      have hp := hpos _ this
      refine absurd hp (not_lt.2 (le_of_eq ?_))
      rw [Finset.sum_range]
      refine Finset.sum_eq_zero fun i _ => ?_
      rw [Finset.sum_range]
      have hi := congrFun hz i
      rw [hT] at hi
      simp only [Fin.is_lt, dif_pos, mul_assoc, ← Finset.mul_sum]
      rw [hi]
      simp)
    refine ⟨fun k => if hk : k < M then x ⟨k, hk⟩ else 0, fun i hi => ?_⟩
    have := congrFun hx ⟨i, hi⟩
    rw [hT] at this
    rw [Finset.sum_range, ← this]
    exact Finset.sum_congr rfl fun j _ => by simp
  simp only [dif_pos h]
  exact h.choose_spec

/-- The laminate is homogenised to the harmonic mean 3/2 across the layers, on either path. -/
example : ∃ solve dsolve, Exact exTieP.M solve ∧ ExactDirect exTieP.M dsolve ∧ ∃ r r',
    homogenize 2 exPts exX (krylovCase solve exPts exTieP) = .ok r ∧ homogenizeDirect 2 dsolve exPts exTieP exX = .ok r' ∧
    entry r 0 0 = 3 / 2 ∧ entry r' 0 0 = 3 / 2 := by
  obtain ⟨solve, hs⟩ := exists_exact exTieP.M
  obtain ⟨dsolve, hs'⟩ := exists_exactDirect exTieP.M
  obtain ⟨r', hr'⟩ := C120_total (dsolve := dsolve) (pts := exPts) (X := exX) Layout.plane exTidy
  refine ⟨solve, dsolve, hs, hs', _, r', rfl, hr', ?_⟩
  have hsame := C120_same_stiffness Layout.plane exCell exTidy exConnected hs hs' rfl hr' 0 0
  suffices h : entry _ 0 0 = 3 / 2 from ⟨h, hsame.trans h⟩
  let u : Field 2 := fun n i => if i = 0 then (if n % 3 = 0 then 0 else if n % 3 = 1 then 3 / 2 else 2) else 0
  have hE : strain pairs2 (Pi.single 0 1) = !![1, 0; 0, 0] := by
    ext i j
    fin_cases i <;> fin_cases j <;> simp [strain, pairs2, Fin.sum_univ_three, Pi.single_apply] <;> norm_num
  have hu : Equilibrium exPts exX exTieP (strain pairs2 (Pi.single 0 1)) u := by
    rw [hE]
    refine ⟨fun n hn m hm i j h => ?_, fun v hv => ?_⟩
    · obtain rfl := exTidy.separate n hn m hm i j h
      simp only [exTieP] at hn hm h
      have h3 : (n % 3 = 1) ↔ (m % 3 = 1) := by
        split_ifs at h <;> omega
      have hn3 : n % 3 = 0 ∨ n % 3 = 1 ∨ n % 3 = 2 := by omega
      have hm3 : m % 3 = 0 ∨ m % 3 = 1 ∨ m % 3 = 2 := by omega
      fin_cases i
      · rcases hn3 with a | a | a <;> rcases hm3 with b | b | b <;> simp [a, b] at h3 <;> simp [u, exX, a, b]
      · simp [u]
    · obtain ⟨h2, h3, h5, h4⟩ := exPeriodic hv 0
      obtain ⟨k2, k3, k5, k4⟩ := exPeriodic hv 1
      simp [work, exPts, gradAt, ddot, exShear, Fin.sum_univ_two, u, h2, h3, h4, h5, k2, k3, k4, k5]
      ring
  have hl := C118_effective_law Layout.plane exCell hs rfl (Pi.single 0 1) hu 0
  have hR : ∑ k : Fin 3, entry (Result.mk (transpose (voigt (d := 2) 2 0).length
      (List.map (averageStress 2 exPts) (List.map (krylovCase solve exPts exTieP) (List.map (macroDisplacement exX) (unitStrains 2)))))
      (List.map (krylovCase solve exPts exTieP) (List.map (macroDisplacement exX) (unitStrains 2)))
      (List.map (macroDisplacement exX) (unitStrains 2))) (0 : Fin 3) k * (Pi.single 0 1 : Fin 3 → ℝ) k = 3 / 2 := by
    refine hl.symm.trans ?_
    simp [exPts, gradAt, exShear, pairs2, u]
    norm_num
  simpa [Fin.sum_univ_three] using hR
/-- The laminate with all moduli scaled by `c`. -/
noncomputable def exScaled (c : ℝ) : HPoint 2 → Matrix (Fin 2) (Fin 2) ℝ → Matrix (Fin 2) (Fin 2) ℝ := fun q A => c • q.stress A

theorem exScaled_cell {c : ℝ} (hc : 0 ≤ c) : Cell (withStress exPts (exScaled c)) exX exTieP where
  elastic q hq := by
    obtain ⟨p, hp, rfl⟩ := List.mem_map.1 hq
    have h := exCell.elastic p hp
    exact ⟨fun A B => by simp [exScaled, h.add], fun k A => by simp only [exScaled]; rw [h.smul, smul_comm],
      fun A i j => congrArg (c * ·) (h.symm A i j),
      fun A B => by simp only [exScaled, ddot_smul_left, h.major A B],
      fun A => by simp only [exScaled, ddot_smul_left]; exact mul_nonneg hc (h.nonneg A)⟩
  weight q hq := by
    obtain ⟨p, hp, rfl⟩ := List.mem_map.1 hq
    exact exCell.weight p hp
  volume := by simp [withStress, exPts]
  nodes q hq := by
    obtain ⟨p, hp, rfl⟩ := List.mem_map.1 hq
    exact exCell.nodes p hp
  unity q hq := by
    obtain ⟨p, hp, rfl⟩ := List.mem_map.1 hq
    exact exCell.unity p hp
  complete q hq := by
    obtain ⟨p, hp, rfl⟩ := List.mem_map.1 hq
    exact exCell.complete p hp
  range := exCell.range

theorem exScaled_residual (c : ℝ) (u : Field 2) : Homog.residual (withStress exPts (exScaled c)) u = c • Homog.residual exPts u := by
  funext n i
  simp only [Homog.residual, withStress, List.map_map, Function.comp_def, Pi.smul_apply, smul_eq_mul]
  rw [← List.sum_map_mul_left]
  congr 1
  refine List.map_congr_left fun q _ => ?_
  rw [← List.sum_map_mul_left]
  congr 1
  refine List.map_congr_left fun a _ => ?_
  simp only [mul_ite, mul_zero, exScaled, Matrix.smul_apply, smul_eq_mul, mul_assoc, ← Finset.mul_sum]
  rw [mul_left_comm]
  rfl

open Classical in
/-- The displacements of the scaled laminate do not depend on the scale. -/
theorem exScaled_run : ∃ (solve : Solver) (r : ℝ → Result 2), Exact exTieP.M solve ∧
    (∀ c, 0 < c → homogenize 2 (withStress exPts (exScaled c)) exX (krylovCase solve (withStress exPts (exScaled c)) exTieP) = .ok (r c)) ∧
    ∀ k : Fin 3, ∀ c, 0 < c → ∀ n i, (r c).uTotals.getD k 0 n i = (r 1).uTotals.getD k 0 n i := by
  let solve : Solver := fun op b => if h : ∃ x, ∀ k < exTieP.M, op x k = b k then h.choose else 0
  refine ⟨solve, fun c => ⟨transpose (voigt (d := 2) 2 0).length (((unitStrains 2).map (macroDisplacement exX)).map
      (krylovCase solve (withStress exPts (exScaled c)) exTieP) |>.map (averageStress 2 (withStress exPts (exScaled c)))),
      ((unitStrains 2).map (macroDisplacement exX)).map (krylovCase solve (withStress exPts (exScaled c)) exTieP),
      (unitStrains 2).map (macroDisplacement exX)⟩, fun op b _ h => ?_, fun c _ => rfl, fun k c hc n i => ?_⟩
  · simp only [solve, dif_pos h]
    exact h.choose_spec
  · have key : ∀ um, krylovCase solve (withStress exPts (exScaled c)) exTieP um = krylovCase solve (withStress exPts (exScaled 1)) exTieP um := by
      intro um
      have hsc : ∀ a : ℝ, 0 < a → (fun x : ℕ → ℝ => ∀ k < exTieP.M, reducedOp (withStress exPts (exScaled a)) exTieP x k =
          caseRhs (withStress exPts (exScaled a)) exTieP um k) =
          fun x => ∀ k < exTieP.M, reducedOp exPts exTieP x k = caseRhs exPts exTieP um k := by
        intro a ha
        funext x
        simp only [reducedOp, caseRhs, exScaled_residual, restrict_smul, Pi.smul_apply, smul_eq_mul, ← mul_neg]
        exact propext ⟨fun h k hk => mul_left_cancel₀ ha.ne' (h k hk), fun h k hk => by rw [h k hk]⟩
      have hsol : ∀ a : ℝ, 0 < a → solve (reducedOp (withStress exPts (exScaled a)) exTieP) (caseRhs (withStress exPts (exScaled a)) exTieP um) =
          solve (reducedOp exPts exTieP) (caseRhs exPts exTieP um) := by
        intro a ha
        have := hsc a ha
        have hex : (∃ x, ∀ k < exTieP.M, reducedOp (withStress exPts (exScaled a)) exTieP x k =
          caseRhs (withStress exPts (exScaled a)) exTieP um k) := C118_solvable (exScaled_cell ha.le) um
        have hex' := C118_solvable exCell um
        simp only [solve, dif_pos hex, dif_pos hex', Exists.choose]
        congr 1
      funext n i
      simp only [krylovCase, hsol c hc, hsol 1 one_pos]
    simp only [List.getD_eq_getElem?_getD, List.getElem?_map]
    cases (unitStrains 2)[(k : ℕ)]? <;> simp [key]
/-- The hypotheses of `C121_sensitivity` are met by the laminate with moduli scaled by `exp t`. -/
example (t₀ : ℝ) (i k : Fin 3) : ∃ (solve : Solver) (r : ℝ → Result 2),
    (∀ t, homogenize 2 (withStress exPts (exScaled (Real.exp t))) exX
      (krylovCase solve (withStress exPts (exScaled (Real.exp t))) exTieP) = .ok (r t)) ∧
    HasDerivAt (fun t => entry (r t) i k)
      ((exPts.map fun q => q.w * ddot (exScaled (Real.exp t₀) q (gradAt q ((r t₀).uTotals.getD k 0))) (gradAt q ((r t₀).uTotals.getD i 0))).sum /
        (exPts.map (·.w)).sum) t₀ := by
  obtain ⟨solve, r, hs, hr, hu⟩ := exScaled_run
  refine ⟨solve, fun t => r (Real.exp t), fun t => hr _ (Real.exp_pos t), ?_⟩
  refine C121_sensitivity Layout.plane (s := fun t => exScaled (Real.exp t)) (fun t => exScaled_cell (Real.exp_pos t).le) hs
    (fun t => hr _ (Real.exp_pos t)) (fun q _ A a b => ?_) (u' := 0) (fun n a => ?_) i
  · exact (Real.hasDerivAt_exp t₀).mul_const _
  · have : (fun t => (r (Real.exp t)).uTotals.getD k 0 n a) = fun _ => (r 1).uTotals.getD k 0 n a :=
      funext fun t => hu k _ (Real.exp_pos t) n a
    rw [this]
    exact hasDerivAt_const _ _

/-- The hypotheses of `C121_solve_gradient` are met by one equation with a moving coefficient. -/
example (dsolve : DirectSolver) (hs : ExactDirect 1 dsolve) : ∃ g, HasDerivAt (fun t => ∑ _s : Fin 1, ∑ i ∈ Finset.range 1,
    (fun _ => 1 : ℕ → ℝ) i * (fun _ => Real.exp (-t) : ℕ → ℝ) i) g 0 :=
  ⟨_, C121_solve_gradient (c := 1) (A := fun t _ _ => Real.exp t) (A' := fun _ _ => 1) (x := fun _ t _ => Real.exp (-t)) (b := fun _ _ _ => 1)
    (x' := fun _ _ => -1) (b' := fun _ _ => 0) hs (fun _ _ => 1) (fun _ _ _ _ => rfl)
    (fun y ⟨j, hj, hy⟩ => by
      obtain rfl : j = 0 := by omega
      simp only [Finset.sum_range_one, Real.exp_zero, mul_one]
      exact mul_self_pos.2 hy)
    (fun _ t i _ => by simp [← Real.exp_add]) (fun _ _ => by simpa using Real.hasDerivAt_exp 0) (fun _ _ => hasDerivAt_const _ _)
    (fun _ _ => by simpa using ((hasDerivAt_id (0 : ℝ)).neg).exp)⟩

/-- The laminate meets the hypotheses of `C119_definite`, `C119_voigt_bound` and `C119_reuss_bound`. -/
example {solve : Solver} (hs : Exact exTieP.M solve) (e : Fin 3 → ℝ) (he : e ≠ 0) :
    ∃ r, homogenize 2 exPts exX (krylovCase solve exPts exTieP) = .ok r ∧ 0 < ∑ i : Fin 3, ∑ k : Fin 3, e i * entry r i k * e k := by
  refine ⟨_, rfl, C119_definite Layout.plane exCell exCellClosed hs rfl (fun q hq => ?_) (fun q hq A hA i j => ?_) e he⟩
  · simp only [exPts, List.mem_cons, List.not_mem_nil, or_false] at hq
    rcases hq with rfl | rfl <;> norm_num
  · have key : ∀ c : ℝ, 0 < c → ddot (exShear c A) A = 0 → ∀ i j, A i j + A j i = 0 := by
      intro c hc h i j
      simp only [ddot, exShear, Matrix.smul_apply, Matrix.add_apply, Matrix.transpose_apply, smul_eq_mul, Fin.sum_univ_two] at h
      have h0 : 2 * A 0 0 ^ 2 + (A 0 1 + A 1 0) ^ 2 + 2 * A 1 1 ^ 2 = 0 := by
        refine (mul_eq_zero.1 (show c / 2 * (2 * A 0 0 ^ 2 + (A 0 1 + A 1 0) ^ 2 + 2 * A 1 1 ^ 2) = 0 by linarith)).resolve_left ?_
        positivity
      have a : A 0 0 = 0 := by nlinarith [sq_nonneg (A 0 0), sq_nonneg (A 0 1 + A 1 0), sq_nonneg (A 1 1)]
      have b : A 0 1 + A 1 0 = 0 := by nlinarith [sq_nonneg (A 0 0), sq_nonneg (A 0 1 + A 1 0), sq_nonneg (A 1 1)]
      have d : A 1 1 = 0 := by nlinarith [sq_nonneg (A 0 0), sq_nonneg (A 0 1 + A 1 0), sq_nonneg (A 1 1)]
      fin_cases i <;> fin_cases j <;> simp [a, b, d]
      linarith
    simp only [exPts, List.mem_cons, List.not_mem_nil, or_false] at hq
    rcases hq with rfl | rfl
    · exact key 1 (by norm_num) hA i j
    · exact key 3 (by norm_num) hA i j

end Verif.Props
