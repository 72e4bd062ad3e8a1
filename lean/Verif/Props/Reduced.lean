import Verif.Props.Cyclic
import Mathlib.Algebra.CharZero.Defs
import Mathlib.Algebra.Order.Ring.Int

/-!
# Reduced (periodic) solves (C21)
-/

set_option linter.unusedSectionVars false

namespace Verif.Props
open Verif.Model
open scoped BigOperators

section
variable {R : Type*} [CommRing R] {α β : Type*}

/-- The operator handed to the backend by the reduced solver. -/
def reducedOp (d : Discretization R α β) (P : Coo R) (bc : DirichletBC R) (guess : List R) :
    List R → List R :=
  fun v => P.rmatvec (d.matfreeAt bc true guess (P.matvec v))

/-- The right-hand side it hands over. -/
def reducedRhs (d : Discretization R α β) (P : Coo R) (bc : DirichletBC R) (guess : List R) : List R :=
  vneg (P.rmatvec (d.resBc bc guess))

/-- **C21** (constrained space). For every prolongation matrix: a homogeneous linear constraint
`u[s] = Σ_b c_b u[m_b]` that holds for all `P v` and for the guess holds for the result. -/
theorem C21_stays_in_constrained_space (d : Discretization R α β) (backend : Backend R) (P : Coo R)
    (bc0 : DirichletBC R) (guess : List R) (bc : Option (DirichletBC R)) (u : List R)
    (hu : reducedSolver d backend P bc0 (some guess) bc = .ok u) (hlen : guess.length = P.rows)
    (s k : ℕ) (c : ℕ → R) (m : ℕ → ℕ)
    (hP : ∀ v, (P.matvec v).getD s 0 = ∑ b ∈ Finset.range k, c b * (P.matvec v).getD (m b) 0)
    (hg : guess.getD s 0 = ∑ b ∈ Finset.range k, c b * guess.getD (m b) 0) :
    u.getD s 0 = ∑ b ∈ Finset.range k, c b * u.getD (m b) 0 := by
  unfold reducedSolver at hu
  split at hu
  · simp at hu
  · obtain rfl := (Except.ok.inj hu).symm
    simp only [Option.getD_some, reducedSolve]
    set x := backend _ _ _ with hx
    have hadd := vadd_getD guess (P.matvec x) (by simp [Coo.matvec, hlen])
    rw [hadd, hP, hg, ← Finset.sum_add_distrib]
    apply Finset.sum_congr rfl
    intro b _
    rw [hadd]; ring

theorem copies_count {P : Coo R} {N M : ℕ} {col : ℕ → ℕ} (h : Copies P N M col) (c : ℕ)
    (q : ℕ → Bool) :
    (P.entries.filter (fun e => e.2.1 == (c : ℤ) && q e.1)).length
      = ((List.range N).filter (fun i => col i == c && q i)).length := by
  rw [h.entries, List.filter_map, List.length_map]
  congr 1
  apply List.filter_congr
  intro i _
  have : ((col i : ℤ) == (c : ℤ)) = (col i == c) := by
    rw [Bool.eq_iff_iff]; simp
  simp only [Function.comp_apply, this]

/-- The validator's verdict on a copying prolongation. -/
theorem badBcRows_iff {P : Coo R} {N M : ℕ} {col : ℕ → ℕ} (h : Copies P N M col) (rows : List ℕ)
    (hrows : ∀ r ∈ rows, r < N) :
    badBcRows P rows = [] ↔ ∀ i < N, ∀ j < N, col i = col j → i ∈ rows → j ∈ rows := by
  have hcol : ∀ r, r < N → (scatterSet (List.replicate P.rows (-1 : ℤ)) (P.entries.map (·.1))
      (P.entries.map (·.2.1))).getD r (-1) = (col r : ℤ) := by
    intro r hr
    have e1 : P.entries.map (·.1) = List.range N := by
      rw [h.entries, List.map_map]; exact List.map_id' _
    have e2 : P.entries.map (·.2.1) = (List.range N).map (fun i => (col i : ℤ)) := by
      rw [h.entries, List.map_map]; rfl
    rw [e1, e2, h.rows]
    have := scatterSet_getD_nodup (-1 : ℤ) (List.replicate N (-1 : ℤ)) (List.range N)
      ((List.range N).map (fun i => (col i : ℤ))) List.nodup_range r (by simpa using hr)
      (by simpa using hr) (by simp [List.getD_eq_getElem?_getD, hr])
    have e3 : (List.range N).getD r 0 = r := by simp [List.getD_eq_getElem?_getD, hr]
    rw [e3] at this
    rw [this]
    simp [List.getD_eq_getElem?_getD, hr]
  have hsz : ∀ c : ℕ, (P.entries.filter (fun e => e.2.1 == (c : ℤ))).length
      = ((List.range N).filter (fun i => col i == c)).length := by
    intro c
    have := copies_count h c (fun _ => true)
    simpa using this
  have hsub : ∀ c : ℕ, ((List.range N).filter (fun i => col i == c && rows.contains i)).length
      = (((List.range N).filter (fun i => col i == c)).filter (fun i => rows.contains i)).length := by
    intro c
    rw [List.filter_filter]
    congr 1
    apply List.filter_congr
    intro i _
    exact Bool.and_comm _ _
  have hbad : ∀ r ∈ rows, (decide (0 ≤ (col r : ℤ)) &&
      decide (1 < (P.entries.filter (fun e => e.2.1 == (col r : ℤ))).length) &&
      decide ((P.entries.filter (fun e => e.2.1 == (col r : ℤ) && rows.contains e.1)).length
        < (P.entries.filter (fun e => e.2.1 == (col r : ℤ))).length)) = true ↔
      ∃ j < N, col j = col r ∧ j ∉ rows := by
    intro r hr
    rw [hsz, copies_count h (col r) (fun i => rows.contains i), hsub]
    simp only [Bool.and_eq_true, decide_eq_true_eq]
    constructor
    · rintro ⟨_, hlt⟩
      by_contra hno
      push Not at hno
      rw [List.filter_eq_self.mpr] at hlt
      · exact lt_irrefl _ hlt
      · intro a ha
        rw [List.mem_filter, List.mem_range, beq_iff_eq] at ha
        simpa using hno a ha.1 ha.2
    · rintro ⟨j, hj, hjr, hjn⟩
      have hrmem : r ∈ (List.range N).filter (fun i => col i == col r) := by
        rw [List.mem_filter, List.mem_range]; exact ⟨hrows r hr, by simp⟩
      have hjmem : j ∈ (List.range N).filter (fun i => col i == col r) := by
        rw [List.mem_filter, List.mem_range]; exact ⟨hj, by simpa using hjr⟩
      have hlt : (((List.range N).filter (fun i => col i == col r)).filter
          (fun i => rows.contains i)).length < ((List.range N).filter (fun i => col i == col r)).length := by
        apply List.length_filter_lt_length_iff_exists.mpr
        exact ⟨j, hjmem, by simpa using hjn⟩
      have hpos : 0 < (((List.range N).filter (fun i => col i == col r)).filter
          (fun i => rows.contains i)).length := by
        apply List.length_pos_of_mem (a := r)
        rw [List.mem_filter]; exact ⟨hrmem, by simpa using hr⟩
      exact ⟨⟨by omega, by omega⟩, hlt⟩
  unfold badBcRows
  by_cases he : rows.isEmpty = true
  · rw [if_pos he]
    rw [List.isEmpty_iff] at he
    subst he
    simp
  · rw [if_neg he]
    simp only
    rw [List.filter_eq_nil_iff]
    constructor
    · intro hall i hi j hj hij hir
      by_contra hjr
      apply hall i hir
      rw [hcol i hi]
      exact (hbad i hir).mpr ⟨j, hj, hij.symm, hjr⟩
    · intro hall r hr hh
      rw [hcol r (hrows r hr)] at hh
      obtain ⟨j, hj, hjr, hjn⟩ := (hbad r hr).mp hh
      exact hjn (hall r (hrows r hr) j hj hjr.symm hr)

/-- Sum over one class. -/
theorem class_sum {P : Coo R} {d : Discretization R α β} (h : DiscOK d) {M : ℕ} {col : ℕ → ℕ}
    (hc : Copies P d.p.n M col) (bc : DirichletBC R) (hbc : CanonicalBC d.p.n bc) (guess x : List R)
    (c : ℕ) (hcM : c < M) :
    (reducedOp d P bc guess x).getD c 0 = ∑ i ∈ Finset.range d.p.n, if col i = c then
      (if i ∈ bc.rows then x.getD (col i) 0 else ∑ j ∈ Finset.range d.p.n, tangentAt d guess i j *
        (if j ∈ bc.rows then 0 else x.getD (col j) 0)) else 0 := by
  unfold reducedOp
  rw [hc.rmatvec_getD _ c hcM]
  apply Finset.sum_congr rfl
  intro i hi
  have hi' : i < d.p.n := by simpa using hi
  rw [matfreeAt_getD h bc hbc true guess _ (hc.matvec_length x) i hi', hc.matvec_getD x i hi']
  congr 2
  apply Finset.sum_congr rfl
  intro j hj
  rw [hc.matvec_getD x j (by simpa using hj)]
  simp

/-- Core: boundary values and class equilibrium for copying prolongations. -/
theorem reduced_core [IsDomain R] [CharZero R] {P : Coo R} {d : Discretization R α β} (h : DiscOK d)
    {M : ℕ} {col : ℕ → ℕ} (hc : Copies P d.p.n M col) (bc : DirichletBC R) (hbc : CanonicalBC d.p.n bc)
    (backend : Backend R) (guess : List R) (hg : guess.length = d.p.n)
    (hcl : ∀ i < d.p.n, ∀ j < d.p.n, col i = col j → i ∈ bc.rows → j ∈ bc.rows)
    (δ : ℕ → R)
    (hcompat : ∀ k < bc.rows.length, bc.vals.getD k 0 - guess.getD (bc.rows.getD k 0) 0
      = δ (col (bc.rows.getD k 0)))
    (hsolve : Spec.Solves d.p.view M (.fn (reducedOp d P bc guess)) (reducedRhs d P bc guess)
      (backend (.fn (reducedOp d P bc guess)) (reducedRhs d P bc guess) (List.replicate P.cols 0))) :
    ∃ x : List R, reducedSolve d backend P bc guess = vadd guess (P.matvec x) ∧
      (∀ i ∈ bc.rows, x.getD (col i) 0 = δ (col i)) ∧
      ∀ c < M, (∀ i < d.p.n, col i = c → i ∉ bc.rows) →
        ∑ i ∈ Finset.range d.p.n, (if col i = c then (d.residualAt guess).getD i 0 +
          ∑ j ∈ Finset.range d.p.n, tangentAt d guess i j *
            (if j ∈ bc.rows then 0 else x.getD (col j) 0) else 0) = 0 := by
  have hs := hsolve
  unfold reducedRhs at hs
  have hrb := C13_boundary_residual d.p.n bc hbc (d.residualAt guess) guess 1 (residualAt_length h guess)
  refine ⟨backend (.fn (reducedOp d P bc guess)) (vneg (P.rmatvec (d.resBc bc guess)))
    (List.replicate P.cols 0), rfl, ?_⟩
  set x := backend (.fn (reducedOp d P bc guess)) (vneg (P.rmatvec (d.resBc bc guess)))
    (List.replicate P.cols 0) with hxdef
  obtain ⟨_, hx⟩ := hs
  have hrow : ∀ c < M, (∑ i ∈ Finset.range d.p.n, if col i = c then
      (if i ∈ bc.rows then x.getD (col i) 0 else ∑ j ∈ Finset.range d.p.n, tangentAt d guess i j *
        (if j ∈ bc.rows then 0 else x.getD (col j) 0)) else 0)
      = -(∑ i ∈ Finset.range d.p.n, if col i = c then (d.resBc bc guess).getD i 0 else 0) := by
    intro c hcM
    rw [← class_sum h hc bc hbc guess x c hcM, hx c hcM, vneg_getD, hc.rmatvec_getD _ c hcM]
  constructor
  · intro i hi
    have hilt := hbc.lt i hi
    have hr := hrow (col i) (hc.lt i hilt)
    have e1 : (∑ j ∈ Finset.range d.p.n, if col j = col i then
        (if j ∈ bc.rows then x.getD (col j) 0 else ∑ k ∈ Finset.range d.p.n, tangentAt d guess j k *
          (if k ∈ bc.rows then 0 else x.getD (col k) 0)) else 0)
        = ∑ j ∈ Finset.range d.p.n, if col j = col i then x.getD (col i) 0 else 0 := by
      apply Finset.sum_congr rfl
      intro j hj
      by_cases hji : col j = col i
      · rw [if_pos hji, if_pos hji, if_pos (hcl i hilt j (by simpa using hj) hji.symm hi), hji]
      · rw [if_neg hji, if_neg hji]
    have e2 : (∑ j ∈ Finset.range d.p.n, if col j = col i then (d.resBc bc guess).getD j 0 else 0)
        = ∑ j ∈ Finset.range d.p.n, if col j = col i then -δ (col i) else 0 := by
      apply Finset.sum_congr rfl
      intro j hj
      by_cases hji : col j = col i
      · rw [if_pos hji, if_pos hji]
        obtain ⟨k, hk, rfl⟩ := mem_rows_getD hbc (hcl i hilt j (by simpa using hj) hji.symm hi)
        unfold Discretization.resBc
        rw [hrb.2.1 k hk, ← hji, ← hcompat k hk]; ring
      · rw [if_neg hji, if_neg hji]
    rw [e1, e2, ← Finset.sum_neg_distrib] at hr
    have e3 : (∑ j ∈ Finset.range d.p.n, if col j = col i then x.getD (col i) 0 else 0)
        = (((Finset.range d.p.n).filter (fun j => col j = col i)).card : R) * x.getD (col i) 0 := by
      rw [← Finset.sum_filter, Finset.sum_const, nsmul_eq_mul]
    have e4 : (∑ j ∈ Finset.range d.p.n, -(if col j = col i then -δ (col i) else 0))
        = (((Finset.range d.p.n).filter (fun j => col j = col i)).card : R) * δ (col i) := by
      rw [← nsmul_eq_mul, ← Finset.sum_const, Finset.sum_filter]
      apply Finset.sum_congr rfl
      intro j _
      split_ifs <;> simp
    rw [e3, e4] at hr
    have hne : (((Finset.range d.p.n).filter (fun j => col j = col i)).card : R) ≠ 0 := by
      rw [Nat.cast_ne_zero, ← Nat.pos_iff_ne_zero, Finset.card_pos]
      exact ⟨i, by simp [hilt]⟩
    exact mul_left_cancel₀ hne hr
  · intro c hcM hno
    have hr := hrow c hcM
    have e1 : (∑ i ∈ Finset.range d.p.n, if col i = c then
        (if i ∈ bc.rows then x.getD (col i) 0 else ∑ k ∈ Finset.range d.p.n, tangentAt d guess i k *
          (if k ∈ bc.rows then 0 else x.getD (col k) 0)) else 0)
        = ∑ i ∈ Finset.range d.p.n, if col i = c then (∑ k ∈ Finset.range d.p.n, tangentAt d guess i k *
          (if k ∈ bc.rows then 0 else x.getD (col k) 0)) else 0 := by
      apply Finset.sum_congr rfl
      intro i hi
      by_cases hic : col i = c
      · rw [if_pos hic, if_pos hic, if_neg (hno i (by simpa using hi) hic)]
      · rw [if_neg hic, if_neg hic]
    have e2 : (∑ i ∈ Finset.range d.p.n, if col i = c then (d.resBc bc guess).getD i 0 else 0)
        = ∑ i ∈ Finset.range d.p.n, if col i = c then (d.residualAt guess).getD i 0 else 0 := by
      apply Finset.sum_congr rfl
      intro i hi
      by_cases hic : col i = c
      · rw [if_pos hic, if_pos hic]
        unfold Discretization.resBc
        rw [hrb.2.2 i (hno i (by simpa using hi) hic)]
      · rw [if_neg hic, if_neg hic]
    rw [e1, e2] at hr
    have : ∀ i ∈ Finset.range d.p.n, (if col i = c then (d.residualAt guess).getD i 0 +
          ∑ j ∈ Finset.range d.p.n, tangentAt d guess i j *
            (if j ∈ bc.rows then 0 else x.getD (col j) 0) else 0)
        = (if col i = c then (d.residualAt guess).getD i 0 else 0) +
          (if col i = c then ∑ j ∈ Finset.range d.p.n, tangentAt d guess i j *
            (if j ∈ bc.rows then 0 else x.getD (col j) 0) else 0) := by
      intro i _
      split_ifs <;> simp
    rw [Finset.sum_congr rfl this, Finset.sum_add_distrib, hr]
    ring

variable {Pt : Type*}

/-- **C21** (validation). With a prolongation matrix of pairings without chains, the solver is built if
and only if no periodic class is pinned in part: `rows` closed under the pairing, both ways. -/
theorem C21_validation_partial [DecidableEq R] (near : Pt → Pt → Bool) (points : List Pt) (vec : ℕ)
    (pairings : List (PeriodicPairing Pt)) (P : Coo R)
    (hP : prolongationMatrix near points vec pairings = .ok P)
    (hchain : ∀ i j k, Spec.PairedDofs near points vec pairings i j →
      ¬ Spec.PairedDofs near points vec pairings k i)
    (d : Discretization R α β) (hn : points.length * vec = d.p.n) (backend : Backend R)
    (bc0 : DirichletBC R) (hbc : CanonicalBC d.p.n bc0) (guess : Option (List R))
    (bc : Option (DirichletBC R)) :
    ((∃ u, reducedSolver d backend P bc0 guess bc = .ok u) ↔
      ∀ i j, Spec.PairedDofs near points vec pairings i j → (i ∈ bc0.rows ↔ j ∈ bc0.rows)) ∧
    ((∃ i j, Spec.PairedDofs near points vec pairings i j ∧ ¬ (i ∈ bc0.rows ↔ j ∈ bc0.rows)) →
      reducedSolver d backend P bc0 guess bc = .error .valueError) := by
  obtain ⟨B, hnd, hBmem, hBlt, hAlt, col, hcop, hfree, hcol, hpair⟩ :=
    prolongation_copies near points vec pairings P hP hchain
  rw [hn] at hcop hBlt hAlt
  have hiff := badBcRows_iff hcop bc0.rows hbc.lt
  have hrep : ∀ i < d.p.n, ∃ m, m < d.p.n ∧ m ∉ B ∧ col i = col m ∧
      (m = i ∨ Spec.PairedDofs near points vec pairings m i) := by
    intro i hi
    by_cases hB : i ∈ B
    · obtain ⟨m, hm⟩ := (hBmem i).mp hB
      refine ⟨m, hAlt m i hm, ?_, hpair m i hm, Or.inr hm⟩
      intro hmB
      obtain ⟨k, hk⟩ := (hBmem m).mp hmB
      exact hchain m i k hm hk
    · exact ⟨i, hi, hB, rfl, Or.inl rfl⟩
  have hinj : ∀ i < d.p.n, ∀ j < d.p.n, i ∉ B → j ∉ B → col i = col j → i = j := by
    intro i hi j hj hiB hjB hij
    rw [← hn] at hi hj
    rw [hcol i hi hiB, hcol j hj hjB] at hij
    have h1 := freeBelow_getElem B (points.length * vec) i hi hiB
    have h2 := freeBelow_getElem B (points.length * vec) j hj hjB
    rw [hij, h2] at h1
    exact (Option.some.inj h1).symm
  have hmain : badBcRows P bc0.rows = [] ↔
      ∀ i j, Spec.PairedDofs near points vec pairings i j → (i ∈ bc0.rows ↔ j ∈ bc0.rows) := by
    rw [hiff]
    constructor
    · intro hall i j hij
      have hj := hBlt j ((hBmem j).mpr ⟨i, hij⟩)
      have hi := hAlt i j hij
      exact ⟨hall i hi j hj (hpair i j hij).symm, hall j hj i hi (hpair i j hij)⟩
    · intro hall i hi j hj hij hir
      obtain ⟨m, hm, hmB, e1, hmi⟩ := hrep i hi
      obtain ⟨m', hm', hmB', e1', hmi'⟩ := hrep j hj
      have : m = m' := hinj m hm m' hm' hmB hmB' (by rw [← e1, ← e1', hij])
      subst this
      have hmr : m ∈ bc0.rows := by
        rcases hmi with rfl | hmi
        · exact hir
        · exact (hall _ _ hmi).mpr hir
      rcases hmi' with rfl | hmi'
      · exact hmr
      · exact (hall _ _ hmi').mp hmr
  unfold reducedSolver
  constructor
  · rw [← hmain]
    by_cases hb : badBcRows P bc0.rows = []
    · rw [if_neg (not_not.mpr hb)]; simp [hb]
    · rw [if_pos hb]; simp [hb]
  · rintro ⟨i, j, hij, hne⟩
    rw [if_pos]
    intro hb
    exact hne (hmain.mp hb i j hij)

/-- **C21** (values and equilibrium). A reduced solve that is accepted, with a backend that solves the
reduced systems: prescribed values are met whenever the correction they ask of the guess is the same
throughout each periodic class (in particular when the guess already meets them, as the default one
does). -/
theorem C21_values_met_partial [DecidableEq R] [IsDomain R] [CharZero R] (near : Pt → Pt → Bool)
    (points : List Pt) (vec : ℕ) (pairings : List (PeriodicPairing Pt)) (P : Coo R)
    (hP : prolongationMatrix near points vec pairings = .ok P)
    (hchain : ∀ i j k, Spec.PairedDofs near points vec pairings i j →
      ¬ Spec.PairedDofs near points vec pairings k i)
    (d : Discretization R α β) (h : DiscOK d) (hn : points.length * vec = d.p.n) (backend : Backend R)
    (bc : DirichletBC R) (hbc : CanonicalBC d.p.n bc) (guess : List R) (hg : guess.length = d.p.n)
    (u : List R) (hu : reducedSolver d backend P bc (some guess) none = .ok u)
    (jump : ℕ → R) (hjump : ∀ k < bc.rows.length,
      jump (bc.rows.getD k 0) = bc.vals.getD k 0 - guess.getD (bc.rows.getD k 0) 0)
    (hcompat : ∀ i j, Spec.PairedDofs near points vec pairings i j → j ∈ bc.rows → jump j = jump i)
    (hsolve : Spec.Solves d.p.view P.cols (.fn (reducedOp d P bc guess)) (reducedRhs d P bc guess)
      (backend (.fn (reducedOp d P bc guess)) (reducedRhs d P bc guess) (List.replicate P.cols 0))) :
    u.length = d.p.n ∧ Spec.MeetsBC bc u := by
  obtain ⟨B, hnd, hBmem, hBlt, hAlt, col, hcop, hfree, hcol, hpair⟩ :=
    prolongation_copies near points vec pairings P hP hchain
  rw [hn] at hcop hBlt hAlt
  unfold reducedSolver at hu
  by_cases hb : badBcRows P bc.rows = []
  swap
  · rw [if_pos hb] at hu; simp at hu
  rw [if_neg (not_not.mpr hb)] at hu
  obtain rfl := (Except.ok.inj hu).symm
  have hcl := (badBcRows_iff hcop bc.rows hbc.lt).mp hb
  -- value of the jump on a class, read at the free representative
  have hrep : ∀ i ∈ bc.rows, jump i = jump ((freeBelow B (points.length * vec)).getD (col i) 0) := by
    intro i hir
    have hi := hbc.lt i hir
    by_cases hB : i ∈ B
    · obtain ⟨m, hm⟩ := (hBmem i).mp hB
      have hmB : m ∉ B := by
        intro hmB
        obtain ⟨k, hk⟩ := (hBmem m).mp hmB
        exact hchain m i k hm hk
      have hml := hAlt m i hm
      rw [hpair m i hm, hcol m (by rw [hn]; exact hml) hmB, List.getD_eq_getElem?_getD,
        freeBelow_getElem B _ m (by rw [hn]; exact hml) hmB, Option.getD_some]
      exact hcompat m i hm hir
    · rw [hcol i (by rw [hn]; exact hi) hB, List.getD_eq_getElem?_getD,
        freeBelow_getElem B _ i (by rw [hn]; exact hi) hB, Option.getD_some]
  rw [show Spec.Solves d.p.view P.cols = Spec.Solves d.p.view (R := R) (d.p.n - B.length) by rw [hcop.cols]] at hsolve
  obtain ⟨x, hx, hval, _⟩ := reduced_core h hcop bc hbc backend guess hg hcl
    (fun c => jump ((freeBelow B (points.length * vec)).getD c 0))
    (fun k hk => by rw [← hjump k hk]; exact hrep _ (rows_getD_mem bc hk)) hsolve
  simp only [Option.getD_some, Option.getD_none]
  rw [hx]
  refine ⟨by simp [vadd, hg, hcop.matvec_length], ?_⟩
  intro k hk
  have hm := rows_getD_mem bc hk
  rw [vadd_getD _ _ (by rw [hg, hcop.matvec_length]), hcop.matvec_getD _ _ (hbc.lt _ hm), hval _ hm]
  rw [← hrep _ hm, hjump k hk]; ring

/-- **C21** (equilibrium). For a linear problem and a guess that meets the prescribed values, the result
satisfies the equations of the constrained problem: the residual is orthogonal to every field that
satisfies the periodic constraint and vanishes at the prescribed DOFs. -/
theorem C21_constrained_equilibrium_partial [DecidableEq R] [IsDomain R] [CharZero R] (near : Pt → Pt → Bool)
    (points : List Pt) (vec : ℕ) (pairings : List (PeriodicPairing Pt)) (P : Coo R)
    (hP : prolongationMatrix near points vec pairings = .ok P)
    (hchain : ∀ i j k, Spec.PairedDofs near points vec pairings i j →
      ¬ Spec.PairedDofs near points vec pairings k i)
    {d : Discretization R α β} (h : DiscOK d) {kv0 : α → Local R}
    {kf0 : ℕ → β → Local R} (hl : LinearKernels d kv0 kf0)
    (hs0 : Shapes d.p kv0 kf0 d.cellsIn d.facesIn)
    (hn : points.length * vec = d.p.n) (backend : Backend R)
    (bc : DirichletBC R) (hbc : CanonicalBC d.p.n bc) (guess : List R) (hg : guess.length = d.p.n)
    (hmeets : Spec.MeetsBC bc guess)
    (u : List R) (hu : reducedSolver d backend P bc (some guess) none = .ok u)
    (hsolve : Spec.Solves d.p.view P.cols (.fn (reducedOp d P bc guess)) (reducedRhs d P bc guess)
      (backend (.fn (reducedOp d P bc guess)) (reducedRhs d P bc guess) (List.replicate P.cols 0)))
    (w : List R) (hw : w.length = d.p.n)
    (hwper : ∀ i j, Spec.PairedDofs near points vec pairings i j → w.getD j 0 = w.getD i 0)
    (hwbc : ∀ i ∈ bc.rows, w.getD i 0 = 0) :
    Spec.MeetsBC bc u ∧
    ∑ i ∈ Finset.range d.p.n, w.getD i 0 * (d.residualAt u).getD i 0 = 0 := by
  refine ⟨(C21_values_met_partial near points vec pairings P hP hchain d h hn backend bc hbc guess hg u hu
    (fun _ => 0) (fun k hk => by rw [hmeets k hk, sub_self]) (fun _ _ _ _ => rfl) hsolve).2, ?_⟩
  obtain ⟨ω, ⟨hω, hPω⟩, _⟩ := (C22_prolongation_partial near points vec pairings P hP hchain).2.2.2.2 w
    (by rw [hw, hn]) hwper
  obtain ⟨B, hnd, hBmem, hBlt, hAlt, col, hcop, hfree, hcol, hpair⟩ :=
    prolongation_copies near points vec pairings P hP hchain
  rw [hn] at hcop hBlt hAlt
  unfold reducedSolver at hu
  by_cases hb : badBcRows P bc.rows = []
  swap
  · rw [if_pos hb] at hu; simp at hu
  rw [if_neg (not_not.mpr hb)] at hu
  obtain rfl := (Except.ok.inj hu).symm
  have hcl := (badBcRows_iff hcop bc.rows hbc.lt).mp hb
  rw [show Spec.Solves d.p.view P.cols = Spec.Solves d.p.view (R := R) (d.p.n - B.length) by rw [hcop.cols]] at hsolve
  rw [hcop.cols] at hω
  obtain ⟨x, hx, hval, heq⟩ := reduced_core h hcop bc hbc backend guess hg hcl (fun _ => 0)
    (fun k hk => by rw [hmeets k hk, sub_self]) hsolve
  simp only [Option.getD_some, Option.getD_none]
  rw [hx]
  set M := d.p.n - B.length with hM
  obtain ⟨hK, hr⟩ := residual_affine h hl hs0 guess
  obtain ⟨_, hr'⟩ := residual_affine h hl hs0 (vadd guess (P.matvec x))
  have hadd := vadd_getD guess (P.matvec x) (by rw [hg, hcop.matvec_length])
  -- residual of the result
  have hres : ∀ i < d.p.n, (d.residualAt (vadd guess (P.matvec x))).getD i 0
      = (d.residualAt guess).getD i 0 + ∑ j ∈ Finset.range d.p.n, tangentAt d guess i j *
            (if j ∈ bc.rows then 0 else x.getD (col j) 0) := by
    intro i hi
    rw [hr' i hi, hr i hi, add_right_comm, ← Finset.sum_add_distrib]
    congr 1
    apply Finset.sum_congr rfl
    intro j hj
    have hj' : j < d.p.n := by simpa using hj
    rw [hadd, hcop.matvec_getD x j hj', hK]
    by_cases hjr : j ∈ bc.rows
    · rw [if_pos hjr, hval j hjr]; ring
    · rw [if_neg hjr]; ring
  have hwi : ∀ i < d.p.n, w.getD i 0 = ω.getD (col i) 0 := by
    intro i hi
    have : w.getD i 0 = (P.matvec ω).getD i 0 := by rw [hPω]
    rw [this, hcop.matvec_getD ω i hi]
  have hsum : ∑ i ∈ Finset.range d.p.n, w.getD i 0 * (d.residualAt (vadd guess (P.matvec x))).getD i 0
      = ∑ c ∈ Finset.range M, ω.getD c 0 * ∑ i ∈ Finset.range d.p.n,
          (if col i = c then (d.residualAt guess).getD i 0 +
          ∑ j ∈ Finset.range d.p.n, tangentAt d guess i j *
            (if j ∈ bc.rows then 0 else x.getD (col j) 0) else 0) := by
    simp_rw [Finset.mul_sum]
    rw [Finset.sum_comm]
    apply Finset.sum_congr rfl
    intro i hi
    have hi' : i < d.p.n := by simpa using hi
    rw [hwi i hi', hres i hi']
    simp_rw [mul_ite, mul_zero]
    rw [Finset.sum_ite_eq, if_pos (Finset.mem_range.mpr (hcop.lt i hi'))]
  rw [hsum]
  apply Finset.sum_eq_zero
  intro c hcM
  by_cases hno : ∀ i < d.p.n, col i = c → i ∉ bc.rows
  · rw [heq c (by simpa using hcM) hno, mul_zero]
  · push Not at hno
    obtain ⟨i, hi, hic, hir⟩ := hno
    rw [← hic, ← hwi i hi, hwbc i hir, zero_mul]

end

/-! ### Concrete cases -/

/-- Node `2` of the bar is the periodic image of node `1`. -/
def exTie : PeriodicPairing ℤ := ⟨fun x => x == 1, fun x => x == 2, fun x => x + 1, 0⟩

/-- Its prolongation. -/
def exProl : Coo ℤ := ⟨3, 2, [(0, 0, 1), (1, 1, 1), (2, 1, 1)]⟩

theorem exTie_ok : prolongationMatrix exNear [0, 1, 2] 1 [exTie] = .ok exProl := by decide

theorem exTie_dofs (i j : ℕ) (h : Spec.PairedDofs exNear [0, 1, 2] 1 [exTie] i j) : i = 1 ∧ j = 2 := by
  obtain ⟨bc, hbc, a, b, ⟨pi, pj, ha, hb, hm, hs, _⟩, rfl, rfl⟩ := h
  obtain rfl := List.mem_singleton.mp hbc
  simp only [exTie, beq_iff_eq] at hm hs
  subst hm hs
  have h1 : a = 1 := by
    match a, ha with
    | 0, h => simp at h
    | 1, _ => rfl
    | 2, h => simp at h
    | n + 3, h => simp at h
  have h2 : b = 2 := by
    match b, hb with
    | 0, h => simp at h
    | 1, h => simp at h
    | 2, _ => rfl
    | n + 3, h => simp at h
  subst h1 h2
  exact ⟨rfl, rfl⟩

theorem exTie_chain (i j k : ℕ) (h1 : Spec.PairedDofs exNear [0, 1, 2] 1 [exTie] i j) :
    ¬ Spec.PairedDofs exNear [0, 1, 2] 1 [exTie] k i := by
  intro h2
  have := exTie_dofs i j h1
  have := exTie_dofs k i h2
  omega

/-- The reduced operator of the example is the identity. -/
def exRedBackend : Backend ℤ := fun _ b _ => [b.getD 0 0, b.getD 1 0]

theorem exRed_solves (guess b x0 : List ℤ) :
    Spec.Solves (exD .full).p.view 2 (.fn (reducedOp (exD .full) exProl exHold guess)) b
      (exRedBackend (.fn (reducedOp (exD .full) exProl exHold guess)) b x0) := by
  have hcop : Copies exProl (exD .full).p.n 2 (fun i => if i = 0 then 0 else 1) :=
    ⟨rfl, rfl, by decide, by decide⟩
  have hn : (exD .full).p.n = 3 := rfl
  refine ⟨rfl, fun i hi => ?_⟩
  refine (class_sum (exD_ok .full) hcop exHold (exHold_canonical .full) guess _ i hi).trans ?_
  have hrows : exHold.rows = [0] := rfl
  rw [hn, hrows]
  have e := exD_entries .full guess
  simp only [Finset.sum_range_succ, Finset.sum_range_zero]
  rw [e 0 (by omega) 0 (by omega), e 0 (by omega) 1 (by omega), e 0 (by omega) 2 (by omega),
    e 1 (by omega) 0 (by omega), e 1 (by omega) 1 (by omega), e 1 (by omega) 2 (by omega),
    e 2 (by omega) 0 (by omega), e 2 (by omega) 1 (by omega), e 2 (by omega) 2 (by omega)]
  unfold exRedBackend
  interval_cases i
  · simp
  · simp; ring

example := C21_constrained_equilibrium_partial exNear [0, 1, 2] 1 [exTie] exProl exTie_ok exTie_chain
  (exD_ok .full) (exD_lin .full) (exD_shapes0 .full) rfl exRedBackend exHold (exHold_canonical .full)
  [0, 7, 9] rfl (by unfold Spec.MeetsBC; decide) [0, -6, -4] (by decide)
  (exRed_solves _ _ _) [0, 1, 1] rfl
  (fun i j h => by obtain ⟨rfl, rfl⟩ := exTie_dofs i j h; rfl) (by decide)

example := C21_values_met_partial exNear [0, 1, 2] 1 [exTie] exProl exTie_ok exTie_chain (exD .full)
  (exD_ok .full) rfl exRedBackend exHold (exHold_canonical .full)
  [3, 7, 9] rfl [0, -3, -1] (by decide) (fun i => if i = 0 then -3 else 0) (by decide)
  (fun i j h _ => by obtain ⟨rfl, rfl⟩ := exTie_dofs i j h; rfl)
  (exRed_solves _ _ _)

example := C21_validation_partial (R := ℤ) exNear [0, 1, 2] 1 [exTie] exProl exTie_ok exTie_chain
  (exD .full) rfl exRedBackend exHold (exHold_canonical .full) none none

/-- Pinning one of the two tied nodes is rejected; pinning both is accepted. -/
example : badBcRows exProl [1] = [1] ∧ badBcRows exProl [0, 2] = [2] ∧ badBcRows exProl [1, 2] = [] := by decide

/-- **C21** (the compatibility condition is needed). Both nodes of a periodic class are pinned at `0`, so
the validation passes; the caller's guess is `1` and `-1` there; the backend solves the reduced system
exactly; the returned field is not `0` there. -/
theorem C21_incompatible_guess_not_met :
    ∃ (bc : DirichletBC ℤ) (backend : Backend ℤ) (u : List ℤ), CanonicalBC 3 bc ∧
      reducedSolver (exD .full) backend exProl bc (some [0, 1, -1]) none = .ok u ∧
      (let op := reducedOp (exD .full) exProl bc [0, 1, -1]
       let b := vneg (exProl.rmatvec ((exD .full).resBc bc [0, 1, -1]))
       Spec.Solves .full 2 (.fn op) b (backend (.fn op) b [0, 0])) ∧
      ¬ Spec.MeetsBC bc u := by
  refine ⟨⟨[1, 2], [false, true, true], [0, 0], 3⟩, fun _ _ _ => [-1, 0], [-1, 1, -1],
    ⟨by decide, by decide, by decide, by decide, by decide, by decide⟩, by decide, ?_, ?_⟩
  · refine ⟨rfl, ?_⟩
    decide
  · unfold Spec.MeetsBC
    decide

/-- A rotation (scaled) that mixes both components. -/
def exMix (a b : ℕ) : ℤ := ([[3, -4], [4, 3]].getD a []).getD b 0

/-- Three nodes with two components, stiffness `1` on the middle node, a load on the first DOF. -/
def exCycD : Discretization ℤ ℤ ℤ where
  p := ⟨[⟨2, 3, 2, [[0, 1], [1, 2]]⟩], 2, [], .full⟩
  kv := fun q => ⟨vadd (localMul 4 [0,0,0,0, 0,0,0,0, 0,0,q.1,0, 0,0,0,q.1] q.2) [-25 * q.1, 0, 0, 0],
    [0,0,0,0, 0,0,0,0, 0,0,q.1,0, 0,0,0,q.1]⟩
  kf := fun _ _ => ⟨[], []⟩
  zv := 0
  zf := 0
  cellsIn := [1, 0]
  facesIn := []
  batch := 1

/-- **C21** (violation for cyclic prolongations). Node `2` is the rotated image of node `0`; both
components of node `2` and component `1` of node `0` are prescribed as `0`, component `0` of node `0` is
not, so the class of that unknown is pinned in part. The validation, which looks only at the last column
of each row, accepts it; with a backend whose answer solves the reduced system the prescribed values are
not met. -/
theorem C21_cyclic_partial_pin_accepted :
    ∃ (P : Coo ℤ) (bc : DirichletBC ℤ) (backend : Backend ℤ) (u : List ℤ),
      cyclicProlongation exNear [0, 1, 2] 2 2 (fun x => x == 0) (fun x => x == 2) exMix
        (fun x => x + 2) = .ok P ∧ CanonicalBC 6 bc ∧
      reducedSolver exCycD backend P bc none none = .ok u ∧
      (let g := zeroLikeGuess 6 bc
       let op := reducedOp exCycD P bc g
       let b := vneg (P.rmatvec (exCycD.resBc bc g))
       Spec.Solves .full 4 (.fn op) b (backend (.fn op) b [0, 0, 0, 0])) ∧
      ¬ Spec.MeetsBC bc u := by
  refine ⟨⟨6, 4, [(0, 0, 1), (1, 1, 1), (2, 2, 1), (3, 3, 1), (4, 0, 3), (4, 1, -4), (5, 0, 4), (5, 1, 3)]⟩,
    ⟨[1, 4, 5], [false, true, false, false, true, true], [0, 0, 0], 6⟩, fun _ _ _ => [1, 0, 0, 0],
    [1, 0, 0, 0, 3, 4], by decide,
    ⟨by decide, by decide, by decide, by decide, by decide, by decide⟩, by decide, ?_, ?_⟩
  · refine ⟨rfl, ?_⟩
    decide
  · unfold Spec.MeetsBC
    decide

/-- **C21** (boundary condition given per call). If both the condition given at construction and the one
given to the call pass the validation, the call computes what a solver built with the second one
computes. -/
theorem C21_override_equals_rebuild {R : Type*} [CommRing R] {α β : Type*} (d : Discretization R α β)
    (backend : Backend R) (P : Coo R) (bc0 bc : DirichletBC R) (guess u u' : List R)
    (hu : reducedSolver d backend P bc0 (some guess) (some bc) = .ok u)
    (hu' : reducedSolver d backend P bc (some guess) none = .ok u') : u = u' := by
  unfold reducedSolver at hu hu'
  split at hu
  · simp at hu
  · split at hu'
    · simp at hu'
    · exact (Except.ok.inj hu).symm.trans (Except.ok.inj hu')

/-- The hypotheses hold with two different conditions. -/
example : badBcRows exProl [0] = [] ∧ badBcRows exProl [1, 2] = [] := by decide

/-- **C60** (with a prolongation). Each reduced unknown gets the sum, over the constrained DOFs it drives,
of (prescribed value - current value). So a constrained DOF that is the only constrained one of its class
is met by the first increment. -/
theorem C60_x0_prolonged_partial {R : Type*} [CommRing R] {P : Coo R} {N M : ℕ} {col : ℕ → ℕ}
    (hP : Copies P N M col) (bc : DirichletBC R) (hbc : CanonicalBC N bc) (sol : List R)
    (hsol : sol.length = M) (k : ℕ) (hk : k < bc.rows.length)
    (hone : ∀ i ∈ bc.rows, col i = col (bc.rows.getD k 0) → i = bc.rows.getD k 0) :
    (P.matvec (vadd sol (createX0P P bc sol))).getD (bc.rows.getD k 0) 0 = bc.vals.getD k 0 := by
  have hlen := hP.matvec_length sol
  have hX : createX0P P bc sol = P.rmatvec (createX0 bc (P.matvec sol)) := by
    unfold createX0P createX0
    rw [hlen, hP.rows]
  have h60 := C60_x0_satisfies_bc_rows N bc hbc (P.matvec sol) (List.replicate N 0) hlen (by simp)
    (fun _ _ => 0) true
  have hmem := rows_getD_mem bc hk
  have hlt := hbc.lt _ hmem
  have hc := hP.lt _ hlt
  rw [hP.matvec_getD _ _ hlt, hX, vadd_getD _ _ (by rw [hsol, hP.rmatvec_length]), hP.rmatvec_getD _ _ hc,
    Finset.sum_eq_single (bc.rows.getD k 0)]
  · rw [if_pos rfl, h60.2.1 k hk, hP.matvec_getD _ _ hlt]
    ring
  · intro i hi hne
    by_cases hcol : col i = col (bc.rows.getD k 0)
    · rw [if_pos hcol]
      apply h60.2.2.1
      intro him
      exact hne (hone i him hcol)
    · rw [if_neg hcol]
  · intro hn
    exact absurd (Finset.mem_range.mpr hlt) hn

/-- The hypotheses hold for DOF `0` of the tied example. -/
example : (exProl.matvec (vadd [0, 0] (createX0P exProl ⟨[0], [true, false, false], [7], 3⟩ [0, 0]))).getD 0 0 = 7 := by
  have hcop : Copies exProl 3 2 (fun i => if i = 0 then 0 else 1) := ⟨rfl, rfl, by decide, by decide⟩
  have hbc : CanonicalBC (R := ℤ) 3 ⟨[0], [true, false, false], [7], 3⟩ :=
    ⟨by decide, by decide, by decide, by decide, by decide, by decide⟩
  exact C60_x0_prolonged_partial hcop _ hbc [0, 0] rfl 0 (by decide) (by decide)

/-- **C60** (violation with a prolongation). The validation only accepts conditions that pin whole classes,
and then the increment is the prescribed correction times the size of the class: the tied DOFs `1` and
`2` are both prescribed `1`, and the first increment takes them to `2`. -/
theorem C60_tied_rows_overshoot :
    badBcRows exProl [1, 2] = [] ∧
    exProl.matvec (vadd [0, 0] (createX0P exProl ⟨[1, 2], [false, true, true], [1, 1], 3⟩ [0, 0]))
      = [0, 2, 2] := by
  decide

end Verif.Props
