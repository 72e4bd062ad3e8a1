import Verif.Model.AmgOps
import Verif.Props.Extra
import Verif.Props.AmgNewton
import Verif.Props.Detect

/-!
# C129: the AMG solver with rebuilt hierarchies solves the right systems
-/

namespace Verif.Props

open Verif.Model Verif.Model.Newton
open scoped BigOperators

namespace Spec.AmgOps

variable {R : Type} [CommRing R]

/-- `x` has `n` entries and `A x = b`, for an operator given by its product. -/
def Solved (n : ℕ) (A : List R → List R) (b x : List R) : Prop :=
  x.length = n ∧ ∀ i < n, (A x).getD i 0 = b.getD i 0

end Spec.AmgOps

section ops
variable {R : Type} [CommRing R] {α β : Type*}

/-- No extra term. -/
def noExtra (R : Type) [CommRing R] (n : ℕ) : ExtraTerm R := ⟨fun _ => List.replicate n 0, fun _ _ _ => 0⟩

theorem zeroAt_zeros (rows : List ℕ) (n : ℕ) : ExtraTerm.zeroAt rows (List.replicate n (0 : R)) = List.replicate n 0 := by
  refine List.ext_getElem (by simp [zeroAt_length]) fun i h1 h2 => ?_
  have := zeroAt_getD rows (List.replicate n (0 : R)) i (by simpa using h2)
  rw [List.getD_eq_getElem _ _ h1] at this
  rw [this]
  simp

theorem vadd_zeros (x : List R) (n : ℕ) (h : x.length = n) : vadd x (List.replicate n 0) = x := by
  refine List.ext_getElem (by simp [vadd, h]) fun i h1 h2 => ?_
  simp [vadd]

theorem noExtra_totalRes {d : Discretization R α β} (h : DiscOK d) (bc : DirichletBC R) (hbc : CanonicalBC d.p.n bc)
    (sol : List R) : (noExtra R d.p.n).totalRes d bc.rows bc sol = d.resBc bc sol := by
  obtain ⟨hl, -, -⟩ := C13_boundary_residual d.p.n bc hbc (d.residualAt sol) sol 1 (residualAt_length h sol)
  unfold ExtraTerm.totalRes ExtraTerm.resBc noExtra
  rw [zeroAt_zeros, vadd_zeros]
  exact hl

theorem resBc_len {d : Discretization R α β} (h : DiscOK d) (bc : DirichletBC R) (hbc : CanonicalBC d.p.n bc)
    (sol : List R) : (d.resBc bc sol).length = d.p.n :=
  (C13_boundary_residual d.p.n bc hbc (d.residualAt sol) sol 1 (residualAt_length h sol)).1

/-- **C129, preconditioner.** The matrix a hierarchy is built from is the one the Krylov method multiplies by, forward and adjoint,
whatever the storage. -/
theorem C129_hierarchy_of_operator {d : Discretization R α β} (h : DiscOK d) (bc : DirichletBC R) (hbc : CanonicalBC d.p.n bc)
    (symmetric : Bool) (sol : List R) (A : AmgSample R)
    (hA : A = d.amgTangent bc symmetric sol ∨ A = d.amgAdjointTangent bc symmetric sol) (v : List R) :
    (A.apply v).length = d.p.n ∧ ∀ i < d.p.n, (A.apply v).getD i 0 = ∑ j ∈ Finset.range d.p.n, A.entry i j * v.getD j 0 := by
  obtain ⟨hwf, hr, hc⟩ := jacBcAt_wf h bc hbc symmetric sol
  have key : A = ⟨d.jacBcAt bc symmetric sol, false⟩ ∨ A = ⟨d.jacBcAt bc symmetric sol, true⟩ := by
    rcases hA with rfl | rfl
    · exact Or.inl rfl
    · unfold Discretization.amgAdjointTangent
      cases d.p.view <;> simp
  rcases key with rfl | rfl
  · refine ⟨by simp [AmgSample.apply, matvec_len, hr], fun i hi => ?_⟩
    simp only [AmgSample.apply, AmgSample.entry, Bool.false_eq_true, if_false]
    rw [C06_matvec _ hwf v i (by rw [hr]; exact hi), hc]
  · refine ⟨by simp [AmgSample.apply, rmatvec_len, hc], fun i hi => ?_⟩
    simp only [AmgSample.apply, AmgSample.entry, if_true]
    rw [C06_rmatvec _ hwf v i (by rw [hc]; exact hi), hr]

/-- One step: a Krylov method that solves the one system it is handed gives the exact Newton step. -/
theorem amgStep_exact {P : Type} {d : Discretization R α β} (h : DiscOK d) (bc : DirichletBC R) (hbc : CanonicalBC d.p.n bc)
    (hused : UsedBC d bc) (symmetric : Bool) (hview : d.p.view = .full) (T : AmgTools R P) (M : P) (sol : List R)
    (hsolve : Spec.AmgOps.Solved d.p.n (d.jacBcAt bc symmetric sol).matvec (vneg (d.resBc bc sol))
      (d.amgStep T bc symmetric M sol))
    (hstart : symmetric = true → Spec.MeetsBC bc sol) :
    (∀ k < bc.rows.length, sol.getD (bc.rows.getD k 0) 0 + (d.amgStep T bc symmetric M sol).getD (bc.rows.getD k 0) 0
      = bc.vals.getD k 0) ∧
    ∀ i < d.p.n, i ∉ bc.rows → (d.residualAt sol).getD i 0
      + ∑ j ∈ Finset.range d.p.n, tangentAt d sol i j * (d.amgStep T bc symmetric M sol).getD j 0 = 0 := by
  obtain ⟨hwf, hr, hc⟩ := jacBcAt_wf h bc hbc symmetric sol
  obtain ⟨g1, g2⟩ := step_core h bc hbc (noExtra R d.p.n) (fun _ => by simp [noExtra]) symmetric sol
    (d.amgStep T bc symmetric M sol) (fun i hi => by
      rw [noExtra_totalRes h bc hbc, ← hsolve.2 i hi, C06_matvec _ hwf _ i (by rw [hr]; exact hi), hc]
      apply Finset.sum_congr rfl
      intro j hj
      rw [jacBcAt_stored h bc hbc hused symmetric sol i j hi (by simpa using hj), storedElim_full hview]
      simp [noExtra]) hstart
  refine ⟨g1, fun i hi hir => ?_⟩
  have := g2 i hi hir
  have hi' : ((noExtra R d.p.n).fn sol).getD i 0 = 0 := by simp [noExtra]
  rw [hi'] at this
  simpa [noExtra] using this

/-- **C129, adjoint.** With full storage, the vector the reverse rule computes solves the transposed system of the
boundary-modified residual at the returned state (identity rows at constrained unknowns, columns kept), for both
eliminations, provided the Krylov method solved the one system it was handed. -/
theorem C129_adjoint_partial {P : Type} {d : Discretization R α β} (h : DiscOK d) (bc : DirichletBC R) (hbc : CanonicalBC d.p.n bc)
    (hused : UsedBC d bc) (symmetric : Bool) (hview : d.p.view = .full) (T : AmgTools R P) (sol v : List R)
    (hsolve : Spec.AmgOps.Solved d.p.n (d.amgAdjointTangent bc symmetric sol).apply v
      (T.krylov (T.build (d.amgAdjointTangent bc symmetric sol)) (d.amgAdjointTangent bc symmetric sol).apply v (adjointX0 bc v))) :
    (d.amgAdjoint T bc symmetric sol v).length = d.p.n ∧
      ∀ j < d.p.n, ∑ i ∈ Finset.range d.p.n,
        Spec.rowEliminated bc.rows (tangentAt d sol) i j * (d.amgAdjoint T bc symmetric sol v).getD i 0 = v.getD j 0 := by
  obtain ⟨hwf, hr, hc⟩ := jacBcAt_wf h bc hbc symmetric sol
  have hA : d.amgAdjointTangent bc symmetric sol = ⟨d.jacBcAt bc symmetric sol, true⟩ := by
    unfold Discretization.amgAdjointTangent
    rw [hview]
  have hK : (fun a b => tangentAt d sol a b + (noExtra R d.p.n).jac sol a b) = tangentAt d sol := by
    funext a b; simp [noExtra]
  have core := adjoint_core h bc hbc (noExtra R d.p.n) symmetric hview sol v _ hsolve.1 (fun j hj => by
    rw [← hsolve.2 j hj, (C129_hierarchy_of_operator h bc hbc symmetric sol _ (Or.inr rfl) _).2 j hj]
    apply Finset.sum_congr rfl
    intro i hi
    rw [hK, hA]
    simp only [AmgSample.entry, if_true]
    rw [jacBcAt_stored h bc hbc hused symmetric sol i j (by simpa using hi) hj, storedElim_full hview])
  rw [hK] at core
  have heq : d.amgAdjoint T bc symmetric sol v = if symmetric then (noExtra R d.p.n).correctAdjoint d bc.rows bc sol v
      (T.krylov (T.build (d.amgAdjointTangent bc symmetric sol)) (d.amgAdjointTangent bc symmetric sol).apply v (adjointX0 bc v))
      else (T.krylov (T.build (d.amgAdjointTangent bc symmetric sol)) (d.amgAdjointTangent bc symmetric sol).apply v
        (adjointX0 bc v)) := by
    unfold Discretization.amgAdjoint
    cases symmetric with
    | false => rfl
    | true =>
      simp only [if_true]
      unfold ExtraTerm.correctAdjoint
      simp only
      congr 2
      have hz : ∀ lam, (noExtra R d.p.n).vjp d.p.n bc.rows false sol lam = List.replicate d.p.n 0 := by
        intro lam
        simp [ExtraTerm.vjp, noExtra, List.map_const']
      rw [hz]
      have hg : gather 0 (List.replicate d.p.n (0 : R)) bc.rows = List.replicate bc.rows.length 0 := by
        unfold gather
        refine List.ext_getElem (by simp) fun i h1 h2 => ?_
        simp
      rw [hg, vadd_zeros _ _ (by simp [gather])]
      rfl
  rw [heq]
  exact core

end ops

section loop
variable {K : Type} [Field K] [LinearOrder K] {α β : Type*} {P : Type}

theorem backtrack_axpy {V W : Type*} (E : NewtonEnv K V W) (rho : K) (sol du : V) (rn : Option K) (n : ℕ) : ∀ (a : K) (q : V × Option K),
    backtrack E rho sol du rn n a = some q → ∃ a', q.1 = E.axpy sol a' du := by
  induction n with
  | zero => intro a q hq; simp [backtrack] at hq
  | succ n ih =>
    intro a q hq
    simp only [backtrack] at hq
    split_ifs at hq with h
    · cases hq; exact ⟨a, rfl⟩
    · exact ih _ _ hq

/-- Every recorded direction is a solve at the recorded state, and an invariant kept by the steps holds at every recorded state
and at the end. -/
theorem amgLoop_inv {V W P : Type*} (E : NewtonEnv K V W) (A : AmgEnv K V P) (o : NewtonOpts K) (period : Option ℕ) (lagTol : K)
    (init : Option K) (Inv : V → Prop) (Q : AmgRecord V P → Prop)
    (hstep : ∀ r, Inv r.sol → Q r → ∀ a, Inv (E.axpy r.sol a r.du)) (n : ℕ) : ∀ it M s, Inv s.1 →
      (∀ r ∈ (amgLoop E A o period lagTol init n it M s).2, Q r) →
      (∀ r ∈ (amgLoop E A o period lagTol init n it M s).2, Inv r.sol ∧ r.du = A.solve r.hierarchy r.sol) ∧
      Inv (amgLoop E A o period lagTol init n it M s).1.1 := by
  induction n with
  | zero => intro it M s hs _; simp [amgLoop, hs]
  | succ n ih =>
    intro it M s hs hQ
    simp only [amgLoop] at hQ ⊢
    by_cases h1 : flt s.2.1 (some o.tol) = true
    · simp [h1, hs]
    by_cases h2 : (decide (0 < it) && flt (fop (· / ·) s.2.1 (fop (· + ·) init (some o.tiny))) (some o.relTol)) = true
    · simp only [if_neg h1, if_pos h2]; simp [hs]
    simp only [if_neg h1, if_neg h2] at hQ ⊢
    have hdu : (amgDirection A period lagTol it M s.1).2.1
        = A.solve (amgDirection A period lagTol it M s.1).1 s.1 := by
      unfold amgDirection
      simp only
      split
      · split_ifs <;> rfl
      · rfl
    revert hQ hdu
    generalize amgDirection A period lagTol it M s.1 = c
    intro hQ hdu
    cases hb : backtrack E o.rho s.1 c.2.1 s.2.1 o.maxBacktracks 1 with
    | none =>
      rw [hb] at hQ
      simp only [List.mem_singleton]
      exact ⟨fun r hr => by subst hr; exact ⟨hs, hdu⟩, hs⟩
    | some q =>
      obtain ⟨sol', rn'⟩ := q
      rw [hb] at hQ
      simp only at hQ ⊢
      obtain ⟨a', ha'⟩ := backtrack_axpy E _ _ _ _ _ _ _ hb
      have hs' : Inv sol' := by
        have := hstep ⟨s.1, c.1, c.2.1, c.2.2⟩ hs (hQ _ List.mem_cons_self) a'
        simp only at this ha'
        rw [ha']; exact this
      obtain ⟨g1, g2⟩ := ih (it + 1) (some c.1) (sol', rn', s.2.2 + 1) hs' fun r hr => hQ r (List.mem_cons_of_mem _ hr)
      refine ⟨fun r hr => ?_, g2⟩
      rcases List.mem_cons.mp hr with rfl | hr
      · exact ⟨hs, hdu⟩
      · exact g1 r hr

/-- **C129, steps.** With full storage, whichever hierarchy is kept or rebuilt: if the Krylov method solved the systems of the
iterations that took place, each of their directions is the exact Newton step of the problem (constrained unknowns move to
their values, every other equation vanishes to first order), and a guess with the prescribed values leads to a result with
the prescribed values. Under symmetric elimination the guess must have them. -/
theorem C129_newton_partial {d : Discretization K α β} (h : DiscOK d) (bc : DirichletBC K) (hbc : CanonicalBC d.p.n bc)
    (hused : UsedBC d bc) (symmetric : Bool) (hview : d.p.view = .full) (T : AmgTools K P) (norm : List K → Option K)
    (o : NewtonOpts K) (rebuildEvery : Option ℤ) (lagTol : K) (sol0 : List K) (hlen : sol0.length = d.p.n)
    (hstart : symmetric = true → Spec.MeetsBC bc sol0)
    (hsolve : ∀ r ∈ (d.amgNewton T norm o rebuildEvery lagTol bc symmetric sol0).2,
      Spec.AmgOps.Solved d.p.n (d.jacBcAt bc symmetric r.sol).matvec (vneg (d.resBc bc r.sol)) r.du) :
    let out := d.amgNewton T norm o rebuildEvery lagTol bc symmetric sol0
    out.1.sol.length = d.p.n ∧ (Spec.MeetsBC bc sol0 → Spec.MeetsBC bc out.1.sol) ∧
    ∀ r ∈ out.2,
      (∀ k < bc.rows.length, r.sol.getD (bc.rows.getD k 0) 0 + r.du.getD (bc.rows.getD k 0) 0 = bc.vals.getD k 0) ∧
      ∀ i < d.p.n, i ∉ bc.rows → (d.residualAt r.sol).getD i 0
        + ∑ j ∈ Finset.range d.p.n, tangentAt d r.sol i j * r.du.getD j 0 = 0 := by
  intro out
  have hax : ∀ (sol du : List K) (a : K), sol.length = d.p.n → du.length = d.p.n →
      ((d.amgNewtonEnv norm bc).axpy sol a du).length = d.p.n ∧ ∀ i < d.p.n,
        ((d.amgNewtonEnv norm bc).axpy sol a du).getD i 0 = sol.getD i 0 + a * du.getD i 0 := by
    intro sol du a h1 h2
    refine ⟨by simp [Discretization.amgNewtonEnv, vadd, h1, h2], fun i hi => ?_⟩
    simp only [Discretization.amgNewtonEnv]
    rw [vadd_getD _ _ (by simp [h1, h2]), List.getD_eq_getElem (du.map _) _ (by simpa [h2] using hi), List.getElem_map,
      List.getD_eq_getElem du _ (by omega)]
  -- the directions, given the start
  have hdir : ∀ r : AmgRecord (List K) P,
      Spec.AmgOps.Solved d.p.n (d.jacBcAt bc symmetric r.sol).matvec (vneg (d.resBc bc r.sol)) r.du →
      (symmetric = true → Spec.MeetsBC bc r.sol) → _ := fun r hr hs =>
    amgStep_exact h bc hbc hused symmetric hview (⟨fun _ => (), fun _ _ _ _ => r.du⟩ : AmgTools K Unit) () r.sol hr hs
  have hkeep : ∀ (sw : Bool), (symmetric = true → sw = true) → ∀ r : AmgRecord (List K) P,
      (r.sol.length = d.p.n ∧ (sw = true → Spec.MeetsBC bc r.sol)) →
      Spec.AmgOps.Solved d.p.n (d.jacBcAt bc symmetric r.sol).matvec (vneg (d.resBc bc r.sol)) r.du → ∀ a,
      ((d.amgNewtonEnv norm bc).axpy r.sol a r.du).length = d.p.n ∧
        (sw = true → Spec.MeetsBC bc ((d.amgNewtonEnv norm bc).axpy r.sol a r.du)) := by
    intro sw hsw r hr hs a
    obtain ⟨hl, hg⟩ := hax r.sol r.du a hr.1 hs.1
    refine ⟨hl, fun hsw' k hk => ?_⟩
    have hlt := hbc.lt _ (rows_getD_mem bc (k := k) hk)
    have hm := hr.2 hsw' k hk
    have := (hdir r hs (fun e => hr.2 (hsw e))).1 k hk
    simp only [Discretization.amgStep] at this
    rw [hg _ hlt]
    have hz : r.du.getD (bc.rows.getD k 0) 0 = 0 := by linear_combination this - hm
    rw [hz, hm]; ring
  have main : ∀ sw : Bool, (symmetric = true → sw = true) → (sw = true → Spec.MeetsBC bc sol0) →
      (∀ r ∈ out.2, (r.sol.length = d.p.n ∧ (sw = true → Spec.MeetsBC bc r.sol)) ∧ _) ∧
        (out.1.sol.length = d.p.n ∧ (sw = true → Spec.MeetsBC bc out.1.sol)) := fun sw hsw hs0 =>
    amgLoop_inv (d.amgNewtonEnv norm bc) (d.amgEnv T norm o.tiny bc symmetric) o (amgPeriod rebuildEvery) lagTol
      ((d.amgNewtonEnv norm bc).norm ((d.amgNewtonEnv norm bc).resf sol0))
      (fun s => s.length = d.p.n ∧ (sw = true → Spec.MeetsBC bc s)) _ (hkeep sw hsw) o.maxIter 0 none
      (sol0, (d.amgNewtonEnv norm bc).norm ((d.amgNewtonEnv norm bc).resf sol0), 0) ⟨hlen, hs0⟩ hsolve
  obtain ⟨g1, g2⟩ := main symmetric id hstart
  refine ⟨g2.1, fun hm => (main true (fun _ => rfl) (fun _ => hm)).2.2 rfl, fun r hr => ?_⟩
  exact hdir r (hsolve r hr) (g1 r hr).1.2

end loop

/-! ### Triangular storage -/

/-- The adjoint of the two-bar example as a Krylov method finds it with upper triangular storage. -/
def exTriAmg : AmgTools ℤ Unit := ⟨fun _ => (), fun _ _ _ _ => [0, 1, 1]⟩

/-- **C129** (violation). With triangular storage nothing is refused, and the adjoint system is that of the stored triangle:
although the tangent is symmetric and the Krylov method solves exactly what it is handed, the adjoint is not that of the
problem. -/
theorem C129_triangular_adjoint_wrong :
    ∃ (d : Discretization ℤ ℤ ℤ) (bc : DirichletBC ℤ) (T : AmgTools ℤ Unit) (sol v : List ℤ),
      DiscOK d ∧ CanonicalBC d.p.n bc ∧ UsedBC d bc ∧ d.p.view = .upper ∧ v.length = d.p.n ∧ Spec.MeetsBC bc sol ∧
      (∀ i < d.p.n, ∀ j < d.p.n, tangentAt d sol i j = tangentAt d sol j i) ∧
      Spec.AmgOps.Solved d.p.n (d.amgAdjointTangent bc true sol).apply v
        (T.krylov (T.build (d.amgAdjointTangent bc true sol)) (d.amgAdjointTangent bc true sol).apply v (adjointX0 bc v)) ∧
      ∃ j < d.p.n, ∑ i ∈ Finset.range d.p.n,
        Spec.rowEliminated bc.rows (tangentAt d sol) i j * (d.amgAdjoint T bc true sol v).getD i 0 ≠ v.getD j 0 := by
  have hn : (exD .upper).p.n = 3 := rfl
  have he := exD_entries .upper [0, 5, 6]
  refine ⟨exD .upper, exHold, exTriAmg, [0, 5, 6], [0, 1, 1], exD_ok _, exHold_canonical _, exHold_used _, rfl, rfl, ?_, exD_sym _ _,
    ⟨rfl, fun i hi => ?_⟩, 2, by decide, ?_⟩
  · intro k hk
    have : k = 0 := by simpa [exHold] using hk
    subst this; rfl
  · rw [(C129_hierarchy_of_operator (exD_ok .upper) exHold (exHold_canonical .upper) true [0, 5, 6] _ (Or.inr rfl) _).2 i hi, hn]
    have hent : ∀ j < 3, ((exD .upper).amgAdjointTangent exHold true [0, 5, 6]).entry i j
        = ([[1, 0, 0], [0, 2, -1], [0, 0, 1]].getD i []).getD j (0 : ℤ) := by
      intro j hj
      have : ((exD .upper).amgAdjointTangent exHold true [0, 5, 6]).entry i j
          = ((exD .upper).jacBcAt exHold true [0, 5, 6]).todense i j := rfl
      rw [this, jacBcAt_stored (exD_ok .upper) exHold (exHold_canonical .upper) (exHold_used .upper) true [0, 5, 6] i j hi hj]
      unfold storedElim elimEntry
      beta_reduce
      rw [he i hi j hj]
      rw [hn] at hi
      interval_cases i <;> interval_cases j <;> rfl
    rw [Finset.sum_congr rfl fun j hj => by rw [hent j (by simpa using hj)]]
    rw [hn] at hi
    interval_cases i <;> rfl
  · rw [hn]
    simp only [Finset.sum_range_succ, Finset.sum_range_zero, Spec.rowEliminated, exHold]
    rw [he 0 (by decide) 2 (by decide), he 1 (by decide) 2 (by decide), he 2 (by decide) 2 (by decide)]
    have h1 : ((exD .upper).amgAdjoint exTriAmg ⟨[0], [true, false, false], [0], 3⟩ true [0, 5, 6] [0, 1, 1]).getD 1 0 = 1 := by
      simp only [Discretization.amgAdjoint, exTriAmg, if_true]
      rw [scatterSet_getD_not_mem _ _ _ _ _ (by simp)]
      rfl
    have h2 : ((exD .upper).amgAdjoint exTriAmg ⟨[0], [true, false, false], [0], 3⟩ true [0, 5, 6] [0, 1, 1]).getD 2 0 = 1 := by
      simp only [Discretization.amgAdjoint, exTriAmg, if_true]
      rw [scatterSet_getD_not_mem _ _ _ _ _ (by simp)]
      rfl
    rw [h1, h2]
    simp

/-- The hypotheses of `C129_adjoint_partial` are met by the two-bar example. -/
example : ((exD .full).amgAdjoint (⟨fun _ => (), fun _ A b x => exBackend (.fn A) b x⟩ : AmgTools ℤ Unit) exHold true [0, 5, 6]
    [0, 1, 1]).length = 3 := by
  have hn : (exD .full).p.n = 3 := rfl
  have he := exD_entries .full [0, 5, 6]
  refine (C129_adjoint_partial (exD_ok .full) exHold (exHold_canonical .full) (exHold_used .full) true rfl _ [0, 5, 6] [0, 1, 1]
    ⟨rfl, fun i hi => ?_⟩).1
  rw [(C129_hierarchy_of_operator (exD_ok .full) exHold (exHold_canonical .full) true [0, 5, 6] _ (Or.inr rfl) _).2 i hi, hn]
  have hent : ∀ j < 3, ((exD .full).amgAdjointTangent exHold true [0, 5, 6]).entry i j
      = ([[1, 0, 0], [0, 2, -1], [0, -1, 1]].getD i []).getD j (0 : ℤ) := by
    intro j hj
    have : ((exD .full).amgAdjointTangent exHold true [0, 5, 6]).entry i j
        = ((exD .full).jacBcAt exHold true [0, 5, 6]).todense j i := rfl
    rw [this, jacBcAt_stored (exD_ok .full) exHold (exHold_canonical .full) (exHold_used .full) true [0, 5, 6] j i hj hi]
    unfold storedElim elimEntry
    beta_reduce
    rw [he j hj i hi]
    rw [hn] at hi
    interval_cases i <;> interval_cases j <;> rfl
  rw [Finset.sum_congr rfl fun j hj => by rw [hent j (by simpa using hj)]]
  rw [hn] at hi
  interval_cases i <;> rfl

/-! ### A run of the loop -/

/-- The bar of `exRobin` on a spring, with a Krylov method that inverts its eliminated tangent. -/
def exBarAmg : AmgTools ℚ Unit :=
  ⟨fun _ => (), fun _ _ b _ => [b.getD 0 0, (2 * b.getD 1 0 + b.getD 2 0) / 3, (b.getD 1 0 + 2 * b.getD 2 0) / 3]⟩

def exBarHold : DirichletBC ℚ := ⟨[0], [true, false, false], [0], 3⟩

def exBarOpts : NewtonOpts ℚ := ⟨1 / 100, 1 / 100, 5, 1 / 10000, 1 / 2, 10, 0, 1 / 1000⟩

theorem exRobin_ok (k : ℚ) : DiscOK (exRobin k) where
  wf := exP_wf
  batch := Nat.two_pos
  cells := rfl
  faces := .cons rfl .nil
  volJac := fun _ => rfl
  volRes := fun _ => rfl
  faceJac := fun _ _ => rfl
  faceRes := fun _ _ => rfl

/-- A run of the loop. -/
def exBarOut : HostResult ℚ (List ℚ) × List (AmgRecord (List ℚ) Unit) :=
  (exRobin 1).amgNewton exBarAmg (fun v => some (v.map (fun x => x * x)).sum) exBarOpts none (1 / 2) exBarHold true [0, 5, 6]

/-- The hypotheses of `C129_newton_partial` are met by a run with one iteration, which ends at the solution. -/
example : exBarOut.2.length = 1 ∧ exBarOut.1.sol = [0, 0, 0] ∧ exBarOut.1.converged = true ∧ Spec.MeetsBC exBarHold exBarOut.1.sol := by
  refine ⟨by decide +kernel, by decide +kernel, by decide +kernel, ?_⟩
  refine (C129_newton_partial (exRobin_ok 1) exBarHold ⟨by decide, by decide, by decide, by decide, by decide, by decide⟩ ?_ true rfl _ _ _ _ _
    [0, 5, 6] rfl (fun _ k hk => ?_) ?_).2.1 (fun k hk => ?_)
  · intro sol r hr
    simp only [exBarHold, List.mem_singleton] at hr
    subst hr
    exact ⟨⟨[0, 1], _, _⟩, List.mem_append_left _ (List.mem_map.mpr ⟨((1, gather 0 sol [0, 1]), 0), List.mem_cons_self, rfl⟩), by simp⟩
  · have : k = 0 := by simpa [exBarHold] using hk
    subst this; rfl
  · have : ∀ r ∈ exBarOut.2, r.du.length = 3 ∧ ∀ i < 3, (((exRobin 1).jacBcAt exBarHold true r.sol).matvec r.du).getD i 0
          = (vneg ((exRobin 1).resBc exBarHold r.sol)).getD i 0 := by decide +kernel
    exact this
  · have : k = 0 := by simpa [exBarHold] using hk
    subst this; rfl
end Verif.Props
