import Verif.Props.Options

/-!
# C49: `create_solver` honours or rejects its option combination
-/

namespace Verif.Props
open Verif.Model

/-- Specification: what a solver observably does. -/
structure Behaviour (ν : Type) where
  /-- runs Newton to convergence (otherwise: one linear solve) -/
  iterates : Bool
  /-- rows and columns of constrained DOFs are eliminated (otherwise: rows only) -/
  symmetric : Bool
  /-- the extra residual is part of the equation -/
  extra : Bool
  /-- the system is reduced by the prolongation matrix -/
  reduced : Bool
  /-- Newton controls in force -/
  cfg : Option ν
  /-- options of the forward and of the adjoint linear solves -/
  fwd : LinOpts
  adj : LinOpts

/-- The behaviour of each solver that `create_solver` can return. -/
def behaviour {ν : Type} : Plan ν → Behaviour ν
  | .reduced f a => ⟨false, true, false, true, none, f, a⟩
  | .linear f a s => ⟨false, s, false, false, none, f, a⟩
  | .newton f a c s => ⟨true, s, false, false, c, f, a⟩
  | .newtonAmg o c s => ⟨true, s, false, false, c, .amg o, .amg o⟩
  | .extraAssembled f a c s => ⟨true, s, true, false, c, f, a⟩
  | .extraHybrid f a c s => ⟨true, s, true, false, c, f, a⟩

/-- Specification: the options in force are what was asked for: same family, the named algorithm with all its settings, or a
concrete algorithm where "auto" was asked; AMG may be run as the preconditioner of the named Krylov method. -/
def Honours (amgId : ℕ) (want got : LinOpts) : Prop :=
  match want with
  | .direct o => ∃ o', got = .direct o' ∧ o'.solver ≠ "auto" ∧ (o.solver ≠ "auto" → o' = o)
  | .krylov o => ∃ o', got = .krylov o' ∧ o'.solver ≠ "auto" ∧ (o.solver ≠ "auto" → o' = o)
  | .amg o => got = .amg o ∨ ∃ k, got = .krylov k ∧ k.preconditioner = some amgId ∧ k.solver ≠ "auto" ∧
      (o.solver ≠ "auto" → k.solver = o.solver) ∧ k.tol = o.tol ∧ k.atol = o.atol ∧ k.maxiter = o.maxiter ∧
      k.restart = o.restart
  | .unsupported => False

variable {ν : Type} (env : SolverEnv)

theorem resolveIterative_named (o : KrylovOptions) (mp : MatProp) : (resolveIterative o mp).solver ≠ "auto" := by
  unfold resolveIterative
  split_ifs with h
  · exact h
  · cases mp <;> simp [krylovOf]

theorem resolveDirect_named {rt : Runtime} {o r : DirectOptions} {mp : MatProp} {view : MatrixView}
    (h : resolveDirect rt o mp view = .ok r) : r.solver ≠ "auto" ∧ (o.solver ≠ "auto" → r = o) := by
  by_cases ha : o.solver = "auto"
  · refine ⟨?_, fun h => absurd ha h⟩
    intro hr
    have := (C48_auto_selection rt o r mp view ha h).1
    rw [hr] at this
    simp [Works] at this
  · by_cases hw : Works rt o.solver
    · rw [(C48_explicit rt o mp view ha).1 hw] at h
      obtain rfl := Except.ok.inj h
      exact ⟨ha, fun _ => rfl⟩
    · obtain ⟨e, he⟩ := (C48_explicit rt o mp view ha).2 hw
      rw [he] at h
      cases h

/-- After the resolution step of `create_solver`. -/
theorem resolveAuto_honours {mp : MatProp} {o f : LinOpts} (ho : o ≠ .unsupported) (h : resolveAuto env mp o = .ok f) :
    isAuto f = false ∧ Honours env.amgId o f ∧ ((∃ q, f = .amg q) → f = o) := by
  unfold resolveAuto at h
  cases o with
  | direct o =>
    split_ifs at h with ha
    · change (resolveDirect env.rt o mp env.view).map LinOpts.direct = .ok f at h
      cases hd : resolveDirect env.rt o mp env.view with
      | error e =>
        rw [hd] at h
        cases h
      | ok r =>
        rw [hd] at h
        obtain rfl := Except.ok.inj h
        obtain ⟨h1, h2⟩ := resolveDirect_named hd
        exact ⟨by simpa [isAuto] using h1, ⟨r, rfl, h1, h2⟩, by rintro ⟨q, hq⟩; cases hq⟩
    · obtain rfl := Except.ok.inj h
      have : o.solver ≠ "auto" := by simpa [isAuto] using ha
      exact ⟨by simpa using ha, ⟨o, rfl, this, fun _ => rfl⟩, fun _ => rfl⟩
  | krylov o =>
    split_ifs at h with ha
    · obtain rfl := Except.ok.inj h
      have h1 := resolveIterative_named o mp
      exact ⟨by simpa [isAuto] using h1,
        ⟨_, rfl, h1, fun h => (C48_iterative_selection o mp).1 h⟩, by rintro ⟨q, hq⟩; cases hq⟩
    · obtain rfl := Except.ok.inj h
      have : o.solver ≠ "auto" := by simpa [isAuto] using ha
      exact ⟨by simpa using ha, ⟨o, rfl, this, fun _ => rfl⟩, fun _ => rfl⟩
  | amg o =>
    rw [if_neg (by simp [isAuto])] at h
    obtain rfl := Except.ok.inj h
    exact ⟨rfl, Or.inl rfl, fun _ => rfl⟩
  | unsupported => exact absurd rfl ho

/-- AMG options lowered to Krylov options. -/
theorem lowerAmg_honours {s p : Bool} {want o f : LinOpts} (ha : isAuto o = false) (hw : Honours env.amgId want o)
    (hq : (∃ q, o = .amg q) → o = want) (h : lowerAmg env s p o = .ok f) :
    isAuto f = false ∧ Honours env.amgId want f ∧ ¬ ∃ q, f = .amg q := by
  cases o with
  | amg q =>
    obtain rfl := hq ⟨q, rfl⟩
    change (amgToKrylov env s p q).map LinOpts.krylov = .ok f at h
    unfold amgToKrylov at h
    cases p with
    | false => cases h
    | true =>
      simp only [Bool.not_true, Bool.false_eq_true, if_false] at h
      obtain rfl := Except.ok.inj h
      have hn : (if q.solver = "auto" then (if env.property s = .spd then "cg" else "gmres") else q.solver) ≠ "auto" := by
        split_ifs with h1 <;> first | exact h1 | decide
      refine ⟨by simpa [isAuto] using hn, Or.inr ⟨_, rfl, rfl, hn, ?_, rfl, rfl, rfl, rfl⟩, by rintro ⟨q', hq'⟩; cases hq'⟩
      intro h1
      exact if_neg h1
  | direct q =>
    obtain rfl := Except.ok.inj h
    exact ⟨ha, hw, by rintro ⟨q', hq'⟩; cases hq'⟩
  | krylov q =>
    obtain rfl := Except.ok.inj h
    exact ⟨ha, hw, by rintro ⟨q', hq'⟩; cases hq'⟩
  | unsupported =>
    obtain rfl := Except.ok.inj h
    exact ⟨ha, hw, by rintro ⟨q', hq'⟩; cases hq'⟩

/-- The second resolution, inside `create_linear_solver`, changes nothing. -/
theorem resolveSide_resolved {o f : LinOpts} (ha : isAuto o = false) (h : resolveSide env .spd o = .ok f) : f = o := by
  cases o with
  | direct q =>
    have hn : q.solver ≠ "auto" := by simpa [isAuto] using ha
    change (resolveDirect env.rt q .spd env.view).map LinOpts.direct = .ok f at h
    cases hd : resolveDirect env.rt q .spd env.view with
    | error e =>
      rw [hd] at h
      cases h
    | ok r =>
      rw [hd] at h
      obtain rfl := Except.ok.inj h
      rw [(resolveDirect_named hd).2 hn]
  | krylov q =>
    have hn : q.solver ≠ "auto" := by simpa [isAuto] using ha
    obtain rfl := Except.ok.inj h
    rw [(C48_iterative_selection q .spd).1 hn]
  | amg q => exact (Except.ok.inj h).symm
  | unsupported => exact (Except.ok.inj h).symm

/-- Specification: the options asked for, after the documented defaults. -/
def wanted (r : Request ν) : LinOpts × LinOpts :=
  let f := r.opts.getD (.direct {})
  (f, r.adj.getD f)

/-- **C49, partial.** A request without prolongation matrix that is accepted is honoured: Newton iterates iff the problem is not
declared linear, the elimination is the one asked for, the extra residual is in the equation iff one was given, the Newton
controls are the user's, and forward and adjoint solves use the algorithms asked for. Excluded: `linear=True` with
`symmetric_elimination=False`, and AMG with rebuilt hierarchies together with an extra residual or separate adjoint options;
see the theorems below. -/
theorem C49_accepted_is_honoured_partial (r : Request ν) (plan : Plan ν) (hP : r.P = false)
    (hsym : r.linear = true → r.symmetric = true)
    (hamg : r.linear = false → (rebuildOptions (wanted r).1).isSome = true → r.extra = false ∧ (wanted r).2 = (wanted r).1)
    (h : createSolver env r = .ok plan) :
    let b := behaviour plan
    b.iterates = !r.linear ∧ b.symmetric = r.symmetric ∧ b.extra = r.extra ∧ b.reduced = false ∧
      (r.linear = false → b.cfg = r.newton) ∧ Honours env.amgId (wanted r).1 b.fwd ∧
      Honours env.amgId (wanted r).2 b.adj := by
  intro b
  unfold createSolver at h
  by_cases h1 : (r.extra && r.linear) = true
  · rw [if_pos h1] at h
    cases h
  rw [if_neg h1] at h
  by_cases h2 : (r.extra && r.P) = true
  · rw [if_pos h2] at h
    cases h
  rw [if_neg h2, if_neg (by simp [hP])] at h
  simp only at h
  have hw1 : r.opts.getD (.direct {}) = (wanted r).1 := rfl
  have hw2 : r.adj.getD (wanted r).1 = (wanted r).2 := rfl
  rw [hw1, hw2] at h
  set wf := (wanted r).1 with hwf
  set wa := (wanted r).2 with hwa
  by_cases h3 : ((isAuto wf || isAuto wa) && !r.params) = true
  · rw [if_pos h3] at h
    cases h
  rw [if_neg h3] at h
  by_cases h4 : wf = .unsupported ∨ wa = .unsupported
  · rw [if_pos h4] at h
    cases h
  rw [if_neg h4] at h
  rw [not_or] at h4
  simp only [bind, Except.bind] at h
  cases hf : resolveAuto env (env.property r.symmetric) wf with
  | error e =>
    rw [hf] at h
    cases h
  | ok f =>
    rw [hf] at h
    simp only at h
    cases ha : resolveAuto env (env.property r.symmetric) wa with
    | error e =>
      rw [ha] at h
      cases h
    | ok a =>
      rw [ha] at h
      simp only at h
      obtain ⟨f1, f2, f3⟩ := resolveAuto_honours env h4.1 hf
      obtain ⟨a1, a2, a3⟩ := resolveAuto_honours env h4.2 ha
      cases hl : r.linear with
      | true =>
        rw [hl, if_pos rfl] at h
        have hex : r.extra = false := by
          cases he : r.extra with
          | false => rfl
          | true => exact absurd (by rw [he, hl]; rfl) h1
        unfold createLinear at h
        simp only [bind, Except.bind] at h
        cases hlf : lowerAmg env true r.params f with
        | error e =>
          rw [hlf] at h
          cases h
        | ok f' =>
          rw [hlf] at h
          simp only at h
          cases hla : lowerAmg env true r.params a with
          | error e =>
            rw [hla] at h
            cases h
          | ok a' =>
            rw [hla] at h
            simp only at h
            obtain ⟨g1, g2, -⟩ := lowerAmg_honours env f1 f2 f3 hlf
            obtain ⟨c1, c2, -⟩ := lowerAmg_honours env a1 a2 a3 hla
            cases hsf : resolveSide env .spd f' with
            | error e =>
              rw [hsf] at h
              cases h
            | ok f'' =>
              rw [hsf] at h
              simp only at h
              cases hsa : resolveSide env .spd a' with
              | error e =>
                rw [hsa] at h
                cases h
              | ok a'' =>
                rw [hsa] at h
                obtain rfl := Except.ok.inj h
                obtain rfl := resolveSide_resolved env g1 hsf
                obtain rfl := resolveSide_resolved env c1 hsa
                exact ⟨rfl, (hsym hl).symm, hex.symm, rfl, by simp, g2, c2⟩
      | false =>
        rw [hl, if_neg (by simp)] at h
        unfold createNewton at h
        cases hreb : rebuildOptions f with
        | some q =>
          rw [hreb] at h
          obtain rfl := Except.ok.inj h
          have hfq : f = .amg q := by
            cases f with
            | amg q' =>
              simp only [rebuildOptions] at hreb
              split_ifs at hreb
              rw [Option.some.inj hreb]
            | direct q => cases hreb
            | krylov q => cases hreb
            | unsupported => cases hreb
          subst hfq
          have hfw : LinOpts.amg q = wf := f3 ⟨q, rfl⟩
          obtain ⟨he, hwaf⟩ := hamg hl (by rw [← hfw, hreb]; rfl)
          refine ⟨rfl, rfl, he.symm, rfl, fun _ => rfl, f2, ?_⟩
          rw [hwaf]
          exact f2
        | none =>
          rw [hreb] at h
          simp only [bind, Except.bind] at h
          cases hlf : lowerAmg env r.symmetric r.params f with
          | error e =>
            rw [hlf] at h
            cases h
          | ok f' =>
            rw [hlf] at h
            simp only at h
            cases hla : lowerAmg env r.symmetric r.params a with
            | error e =>
              rw [hla] at h
              cases h
            | ok a' =>
              rw [hla] at h
              simp only at h
              obtain ⟨g1, g2, g3⟩ := lowerAmg_honours env f1 f2 f3 hlf
              obtain ⟨c1, c2, -⟩ := lowerAmg_honours env a1 a2 a3 hla
              cases hex : r.extra with
              | false =>
                rw [hex] at h
                simp only [Bool.false_eq_true, if_false] at h
                obtain rfl := Except.ok.inj h
                exact ⟨rfl, rfl, rfl, rfl, fun _ => rfl, g2, c2⟩
              | true =>
                rw [hex] at h
                simp only [if_true] at h
                cases f' with
                | direct q =>
                  simp only [createExtra] at h
                  by_cases hv : env.view ≠ .full
                  · rw [if_pos hv] at h
                    cases h
                  · rw [if_neg hv] at h
                    obtain rfl := Except.ok.inj h
                    exact ⟨rfl, rfl, rfl, rfl, fun _ => rfl, g2, c2⟩
                | krylov q =>
                  obtain rfl := Except.ok.inj h
                  exact ⟨rfl, rfl, rfl, rfl, fun _ => rfl, g2, c2⟩
                | amg q => exact absurd ⟨q, rfl⟩ g3
                | unsupported => cases h

/-- **C49.** Contradictory combinations raise: an extra residual on a linear problem or with a prolongation matrix, options of an
unsupported type, an automatic choice without sample parameters, AMG on a linear problem without sample parameters, an
assembled extra residual with triangular storage. -/
theorem C49_contradictions_raise (r : Request ν) :
    (r.extra = true → r.linear = true ∨ r.P = true → createSolver env r = .error .valueError) ∧
    (r.opts = some .unsupported ∨ r.adj = some .unsupported → ∃ e, createSolver env r = .error e) ∧
    (r.P = false → r.params = false → r.opts = none ∨ isAuto (wanted r).1 = true ∨ isAuto (wanted r).2 = true →
      createSolver env r = .error .valueError) ∧
    (r.P = false → r.params = false → r.linear = true → (∃ o, r.opts = some (.amg o)) →
      ∃ e, createSolver env r = .error e) ∧
    (r.P = false → r.linear = false → r.extra = true → env.view ≠ .full →
      (∃ o : DirectOptions, o.solver ≠ "auto" ∧ r.opts = some (.direct o) ∧ r.adj = none) →
      createSolver env r = .error .valueError) := by
  refine ⟨?_, ?_, ?_, ?_, ?_⟩
  · intro he hor
    unfold createSolver
    rcases hor with hl | hP
    · rw [if_pos (by rw [he, hl]; rfl)]
    · by_cases h1 : (r.extra && r.linear) = true
      · rw [if_pos h1]
      · rw [if_neg h1, if_pos (by rw [he, hP]; rfl)]
  · intro hor
    unfold createSolver
    by_cases h1 : (r.extra && r.linear) = true
    · exact ⟨_, by rw [if_pos h1]⟩
    rw [if_neg h1]
    by_cases h2 : (r.extra && r.P) = true
    · exact ⟨_, by rw [if_pos h2]⟩
    rw [if_neg h2]
    have hu (d : LinOpts) : r.opts.getD d = .unsupported ∨ r.adj.getD (r.opts.getD d) = .unsupported := by
      rcases hor with h | h
      · exact Or.inl (by rw [h]; rfl)
      · exact Or.inr (by rw [h]; rfl)
    by_cases hP : r.P = true
    · rw [if_pos hP]
      unfold createReduced
      simp only
      exact ⟨_, by rw [if_pos (hu _)]⟩
    · rw [if_neg hP]
      simp only
      by_cases h3 : ((isAuto (r.opts.getD (.direct {})) || isAuto (r.adj.getD (r.opts.getD (.direct {})))) && !r.params) = true
      · exact ⟨_, by rw [if_pos h3]⟩
      · exact ⟨_, by rw [if_neg h3, if_pos (hu _)]⟩
  · intro hP hp hor
    unfold createSolver
    by_cases h1 : (r.extra && r.linear) = true
    · rw [if_pos h1]
    rw [if_neg h1, if_neg (by simp [hP]), if_neg (by simp [hP])]
    simp only
    rw [if_pos]
    have : isAuto (r.opts.getD (.direct {})) = true ∨ isAuto (r.adj.getD (r.opts.getD (.direct {}))) = true := by
      rcases hor with h | h | h
      · left
        rw [h]
        rfl
      · exact Or.inl h
      · exact Or.inr h
    rw [hp]
    simpa using this
  · rintro hP hp hl ⟨o, ho⟩
    unfold createSolver
    by_cases h1 : (r.extra && r.linear) = true
    · exact ⟨_, by rw [if_pos h1]⟩
    rw [if_neg h1, if_neg (by simp [hP]), if_neg (by simp [hP])]
    simp only
    split_ifs with h3 h4
    · exact ⟨_, rfl⟩
    · exact ⟨_, rfl⟩
    · simp only [bind, Except.bind]
      rw [ho]
      have hra : resolveAuto env (env.property r.symmetric) ((some (LinOpts.amg o)).getD (.direct {})) = .ok (.amg o) := rfl
      rw [hra]
      simp only
      cases resolveAuto env (env.property r.symmetric) (r.adj.getD ((some (LinOpts.amg o)).getD (.direct {}))) with
      | error e => exact ⟨e, rfl⟩
      | ok a =>
        simp only [hp]
        exact ⟨.valueError, rfl⟩
  · rintro hP hl he hv ⟨o, ho, h1, h2⟩
    unfold createSolver
    have hna : isAuto (.direct o) = false := by simpa [isAuto] using ho
    have hra : ∀ mp, resolveAuto env mp (.direct o) = .ok (.direct o) := by
      intro mp
      unfold resolveAuto
      rw [if_neg (by rw [hna]; simp)]
    rw [h1, h2]
    simp only [he, hl, hP, Option.getD_some, Option.getD_none, hna, Bool.and_false, Bool.or_false, Bool.false_and,
      Bool.false_eq_true, if_false, or_self, reduceCtorEq, bind, Except.bind, hra]
    unfold createNewton
    simp only [rebuildOptions, if_true, bind, Except.bind, lowerAmg, createExtra]
    rw [if_pos hv]

/-- A request with no special wishes. -/
def exRequest : Request ℕ :=
  { opts := none, adj := none, newton := some 7, linear := false, P := false, params := true, extra := false, symmetric := true }

/-- A CPU with scikit-sparse, full storage, SPD under symmetric elimination and general otherwise. -/
def exEnv : SolverEnv :=
  { rt := exCpuFull, view := .full, property := fun s => if s then .spd else .general, amgId := 3, pairingOk := true }

/-- The default request is accepted and runs Newton with Cholesky; with non-symmetric elimination, with LU. -/
example : (∃ f a, createSolver exEnv exRequest = .ok (.newton (.direct f) a (some 7) true) ∧ f.solver = "cholmod") ∧
    (∃ f a, createSolver exEnv { exRequest with symmetric := false } = .ok (.newton (.direct f) a (some 7) false) ∧
      f.solver = "umfpack") := by
  exact ⟨⟨_, _, rfl, rfl⟩, ⟨_, _, rfl, rfl⟩⟩

/-- **C49 fails.** `linear=True` ignores `symmetric_elimination=False`: the operator chosen for the non-symmetric matrix then
meets the symmetrically eliminated one, whatever the options. -/
theorem C49_linear_ignores_elimination (r : Request ν) (plan : Plan ν) (hP : r.P = false) (hl : r.linear = true)
    (hs : r.symmetric = false) (h : createSolver env r = .ok plan) : (behaviour plan).symmetric ≠ r.symmetric := by
  rw [hs]
  unfold createSolver at h
  simp only [hP, hl, Bool.and_true, Bool.and_false, Bool.false_eq_true, if_false, bind, Except.bind] at h
  split_ifs at h
  cases hf : resolveAuto env (env.property r.symmetric) (r.opts.getD (.direct {})) with
  | error e =>
    rw [hf] at h
    cases h
  | ok f =>
    rw [hf] at h
    simp only at h
    cases ha : resolveAuto env (env.property r.symmetric) (r.adj.getD (r.opts.getD (.direct {}))) with
    | error e =>
      rw [ha] at h
      cases h
    | ok a =>
      rw [ha] at h
      simp only [if_true] at h
      unfold createLinear at h
      simp only [bind, Except.bind] at h
      repeat' (first | (cases h; done) | (split at h))
      all_goals
        obtain rfl := Except.ok.inj h
        simp [behaviour]

/-- That request is accepted, with any explicit options. -/
example : ∃ plan, createSolver exEnv { exRequest with linear := true, symmetric := false } = .ok plan := ⟨_, rfl⟩

/-- **C49 fails.** With a prolongation matrix every accepted request gets one linear solve with symmetric elimination: a nonlinear
problem is not iterated, and neither the Newton controls nor `symmetric_elimination=False` have any effect. -/
theorem C49_prolongation_never_iterates (r : Request ν) (plan : Plan ν) (hP : r.P = true)
    (h : createSolver env r = .ok plan) :
    (behaviour plan).iterates = false ∧ (behaviour plan).symmetric = true ∧ (behaviour plan).cfg = none := by
  unfold createSolver at h
  split_ifs at h
  unfold createReduced at h
  simp only [bind, Except.bind] at h
  split_ifs at h
  repeat' (first | (cases h; done) | (split at h))
  obtain rfl := Except.ok.inj h
  exact ⟨rfl, rfl, rfl⟩

/-- A nonlinear request with a prolongation matrix is accepted. -/
example : ∃ plan, createSolver exEnv { exRequest with P := true } = .ok plan := ⟨_, rfl⟩

/-- **C49 fails.** With the default AMG options the extra residual is silently left out of the equation, and separate adjoint
options are ignored: the accepted request solves a different problem. -/
theorem C49_amg_drops_extra_residual (cfg : Option ν) (o : AmgOptions) (adj : Option LinOpts)
    (ho : o.rebuildEvery ≠ some 0) (hadj : adj ≠ some .unsupported) (hna : (adj.map isAuto).getD false = false)
    (s params extra : Bool) :
    createSolver env ⟨some (.amg o), adj, cfg, false, false, params, extra, s⟩ = .ok (.newtonAmg o cfg s) ∧
      (behaviour (Plan.newtonAmg o cfg s)).extra = false ∧ (behaviour (Plan.newtonAmg o cfg s)).adj = .amg o := by
  refine ⟨?_, rfl, rfl⟩
  unfold createSolver
  have hA : adj.getD (LinOpts.amg o) ≠ .unsupported := by
    cases adj with
    | none => simp
    | some x => simpa using hadj
  have hB : isAuto (adj.getD (LinOpts.amg o)) = false := by
    cases adj with
    | none => rfl
    | some x => simpa using hna
  have hC : resolveAuto env (env.property s) (adj.getD (LinOpts.amg o)) = .ok (adj.getD (LinOpts.amg o)) := by
    unfold resolveAuto
    rw [hB]
    rfl
  have hD : resolveAuto env (env.property s) (LinOpts.amg o) = .ok (LinOpts.amg o) := rfl
  have hE : isAuto (LinOpts.amg o) = false := rfl
  simp only [Option.getD_some, hB, hC, hD, hE, hA, Bool.and_false, Bool.or_self, Bool.false_and, Bool.false_eq_true, if_false,
    or_self, reduceCtorEq, bind, Except.bind]
  unfold createNewton
  have hF : rebuildOptions (LinOpts.amg o) = some o := if_pos ho
  rw [hF]

/-- The default AMG options rebuild. -/
example : ({} : AmgOptions).rebuildEvery ≠ some 0 := by decide


/-- Specification for the reduced solve: the family asked for, the named algorithm with all its settings, or conjugate gradients
with the user's tolerances where "auto" was asked of an iterative method. -/
def HonoursReduced (want got : LinOpts) : Prop :=
  match want with
  | .direct o => ∃ o', got = .direct o' ∧ o'.solver ≠ "auto" ∧ (o.solver ≠ "auto" → o' = o)
  | .krylov o => ∃ o', got = .krylov o' ∧ (o.solver ≠ "auto" → o' = o) ∧ (o.solver = "auto" → o'.solver = "cg") ∧ o'.tol = o.tol ∧
      o'.atol = o.atol ∧ o'.maxiter = o.maxiter ∧ o'.preconditioner = o.preconditioner
  | .amg o => ∃ o', got = .amg o' ∧ (o.solver ≠ "auto" → o' = o) ∧ (o.solver = "auto" → o' = { o with solver := "cg" })
  | .unsupported => False

/-- C49: with a prolongation matrix an accepted request uses, forward and adjoint, the algorithms asked for; the default is
conjugate gradients, and adjoint options default to the forward ones. A pairing of conditions that the check rejects raises. -/
theorem C49_prolongation_sides (r : Request ν) (plan : Plan ν) (hP : r.P = true) (h : createSolver env r = .ok plan) :
    env.pairingOk = true ∧ r.extra = false ∧ (behaviour plan).reduced = true ∧
      HonoursReduced (r.opts.getD (.krylov {})) (behaviour plan).fwd ∧
      HonoursReduced (r.adj.getD (r.opts.getD (.krylov {}))) (behaviour plan).adj := by
  have side : ∀ o f, reducedSide env o = .ok f → HonoursReduced o f := by
    intro o f hf
    cases o with
    | direct o =>
      unfold reducedSide at hf
      simp only at hf
      split_ifs at hf with ha
      · obtain rfl := Except.ok.inj hf
        exact ⟨o, rfl, ha, fun _ => rfl⟩
      · cases hd : resolveDirect env.rt o .spd env.view with
        | error e => rw [hd] at hf; cases hf
        | ok q =>
          rw [hd] at hf
          obtain rfl := Except.ok.inj hf
          exact ⟨q, rfl, resolveDirect_named hd⟩
    | krylov o =>
      obtain rfl := Except.ok.inj hf
      have hk := C48_iterative_options_partial o .spd
      exact ⟨_, rfl, (C48_iterative_selection o .spd).1, fun ha => ((C48_iterative_selection o .spd).2 ha).1.2 rfl, hk.1, hk.2.1,
        hk.2.2.1, hk.2.2.2.1⟩
    | amg o =>
      obtain rfl := Except.ok.inj hf
      refine ⟨_, rfl, fun ha => ?_, fun ha => ?_⟩
      · rw [if_neg ha]
      · rw [if_pos ha]
    | unsupported => cases hf
  unfold createSolver at h
  split_ifs at h with h1 h2
  unfold createReduced at h
  simp only [bind, Except.bind] at h
  split_ifs at h with h3 h4
  cases hf : reducedSide env (r.opts.getD (.krylov {})) with
  | error e => rw [hf] at h; cases h
  | ok f =>
    rw [hf] at h
    cases ha : reducedSide env (r.adj.getD (r.opts.getD (.krylov {}))) with
    | error e => rw [ha] at h; cases h
    | ok a =>
      rw [ha] at h
      obtain rfl := Except.ok.inj h
      refine ⟨by simpa using h4, ?_, rfl, side _ _ hf, side _ _ ha⟩
      cases he : r.extra with
      | false => rfl
      | true => exact absurd (by rw [he, hP]; rfl) h2

example : ∃ plan, createSolver exEnv { exRequest with P := true, opts := none, adj := some (.krylov { solver := "gmres" }) } = .ok plan := ⟨_, rfl⟩
end Verif.Props
