import Verif.Model.Reuse
import Verif.Props.Solve
import Verif.Props.Options
import Mathlib.Algebra.Order.Field.Basic
import Mathlib.Algebra.Order.BigOperators.Ring.Finset
import Mathlib.Tactic.Positivity
import Mathlib.Tactic.FieldSimp
import Mathlib.Tactic.Linarith

/-!
# Properties of factorisation reuse (C132), of the elimination choice (C133) and of the Jacobi preconditioner (C134)
-/

namespace Verif.Props
open Verif.Model
open scoped BigOperators

section
variable {R : Type} [CommRing R] {α β Tok : Type}

/-- C132: one factorisation serves both solves exactly when it is asked for, both sides are direct, the forward one is
cuDSS, and the matrix is declared symmetric or SPD. -/
theorem C132_when (fwd adj : LinOpts) :
    reuseFactor fwd adj = true ↔
      ∃ f a : DirectOptions, fwd = .direct f ∧ adj = .direct a ∧ f.solver = "cudss" ∧ f.reuse = true ∧
        (f.cudss.matrixType = .symmetric ∨ f.cudss.matrixType = .spd) := by
  cases fwd <;> cases adj <;> simp [reuseFactor, and_assoc]

/-- The factorisation solves the system whose matrix it was given, for every right-hand side. -/
def Factorises (lib : TokenLib R Tok) (view : MatrixView) (n : ℕ) (t : CudssType) (mv : MatrixView)
    (A : CSRMatrix R) : Prop :=
  ∀ b, Spec.Solves view n (.csr A) b (lib.solveWith (lib.factorize t mv A) b)

/-- C132, forward: with one factorisation the solver still returns the field with the prescribed values and zero residual
at every free DOF. -/
theorem C132_forward_correct {d : Discretization R α β} (h : DiscOK d) {kv0 : α → Local R} {kf0 : ℕ → β → Local R}
    (hl : LinearKernels d kv0 kf0) (hs0 : Shapes d.p kv0 kf0 d.cellsIn d.facesIn) (bc : DirichletBC R)
    (hbc : CanonicalBC d.p.n bc) (hused : UsedBC d bc) (lib : TokenLib R Tok) (backend : Backend R)
    (fwd adj : LinOpts) (hreuse : reuseFactor fwd adj = true) (symmetric : Bool)
    (guess : List R) (hg : guess.length = d.p.n) (hguess : symmetric = true → Spec.MeetsBC bc guess)
    (hview : d.p.view = .full ∨ (symmetric = true ∧
      ∀ i < d.p.n, ∀ j < d.p.n, tangentAt d guess i j = tangentAt d guess j i))
    (hfac : Factorises lib d.p.view d.p.n fwd.cudssOf.matrixType fwd.cudssOf.matrixView (d.jacBcAt bc symmetric guess)) :
    (linearForward d lib backend fwd adj symmetric bc guess).1.length = d.p.n ∧
    Spec.MeetsBC bc (linearForward d lib backend fwd adj symmetric bc guess).1 ∧
    ∀ i < d.p.n, i ∉ bc.rows →
      (d.residualAt (linearForward d lib backend fwd adj symmetric bc guess).1).getD i 0 = 0 := by
  have := C16_linear_solve_correct h hl hs0 bc hbc hused
    (fun _ b _ => lib.solveWith (lib.factorize fwd.cudssOf.matrixType fwd.cudssOf.matrixView
        (d.jacBcAt bc symmetric guess)) b) true symmetric guess hg hguess (fun _ => hview) (fun b _ => hfac b)
  have e : (linearForward d lib backend fwd adj symmetric bc guess).1
      = linearStep d (fun _ b _ => lib.solveWith (lib.factorize fwd.cudssOf.matrixType fwd.cudssOf.matrixView
        (d.jacBcAt bc symmetric guess)) b) true symmetric bc guess := by
    unfold linearForward
    rw [if_pos hreuse]
    rfl
  rw [e]
  exact this

/-- What the kept factorisation gives in the reverse pass: a solution of the *transposed* eliminated system at the returned
solution, when the eliminated tangent is symmetric. -/
theorem reuse_adjoint {d : Discretization R α β} (h : DiscOK d) {kv0 : α → Local R} {kf0 : ℕ → β → Local R}
    (hl : LinearKernels d kv0 kf0) (hs0 : Shapes d.p kv0 kf0 d.cellsIn d.facesIn) (bc : DirichletBC R)
    (hbc : CanonicalBC d.p.n bc) (hused : UsedBC d bc) (lib : TokenLib R Tok) (backend adjBackend : Backend R)
    (fwd adj : LinOpts) (hreuse : reuseFactor fwd adj = true) (guess : List R)
    (hsym : ∀ i < d.p.n, ∀ j < d.p.n, tangentAt d guess i j = tangentAt d guess j i)
    (hfac : Factorises lib d.p.view d.p.n fwd.cudssOf.matrixType fwd.cudssOf.matrixView (d.jacBcAt bc true guess))
    (v : List R) :
    let st := linearForward d lib backend fwd adj true bc guess
    (linearReverse d lib adjBackend adj true bc st v).length = d.p.n ∧
    ∀ j < d.p.n, ∑ i ∈ Finset.range d.p.n, elimEntry bc.rows true (tangentAt d st.1) i j
      * (linearReverse d lib adjBackend adj true bc st v).getD i 0 = v.getD j 0 := by
  intro st
  have hst : st = ((factorAndSolve d lib fwd.cudssOf true bc guess).1,
      some (factorAndSolve d lib fwd.cudssOf true bc guess).2) := by
    unfold st linearForward
    rw [if_pos hreuse]
  have hrev : linearReverse d lib adjBackend adj true bc st v
      = lib.solveWith (lib.factorize fwd.cudssOf.matrixType fwd.cudssOf.matrixView (d.jacBcAt bc true guess)) v := by
    rw [hst]
    rfl
  have ht : ∀ i j, tangentAt d st.1 i j = tangentAt d guess i j := fun i j =>
    ((residual_affine h hl hs0 st.1).1 i j).trans ((residual_affine h hl hs0 guess).1 i j).symm
  rw [hrev]
  obtain ⟨h1, h2⟩ := hfac v
  refine ⟨h1, fun j hj => ?_⟩
  rw [← h2 j hj]
  apply Finset.sum_congr rfl
  intro i hi
  have hi' : i < d.p.n := by simpa using hi
  rw [completed_jacBcAt h bc hbc hused true guess (Or.inr ⟨rfl, hsym⟩) j i hj hi']
  congr 1
  have e1 : elimEntry bc.rows true (tangentAt d st.1) i j = elimEntry bc.rows true (tangentAt d guess) i j := by
    unfold elimEntry
    rw [ht]
  rw [e1, elimEntry_symm _ _ i j (hsym i hi' j hj)]

/-- C132, reverse: for a linear problem with a symmetric, non-singular tangent, the adjoint vector obtained from the kept
factorisation is the one the solver without reuse computes with any exact direct backend. All gradients are the same
function of that vector, so they agree too. -/
theorem C132_adjoint_same {d : Discretization R α β} (h : DiscOK d) {kv0 : α → Local R} {kf0 : ℕ → β → Local R}
    (hl : LinearKernels d kv0 kf0) (hs0 : Shapes d.p kv0 kf0 d.cellsIn d.facesIn) (bc : DirichletBC R)
    (hbc : CanonicalBC d.p.n bc) (hused : UsedBC d bc) (lib : TokenLib R Tok) (backend adjBackend : Backend R)
    (fwd adj : LinOpts) (hreuse : reuseFactor fwd adj = true) (guess : List R)
    (hsym : ∀ i < d.p.n, ∀ j < d.p.n, tangentAt d guess i j = tangentAt d guess j i)
    (hreg : ∀ z : ℕ → R, (∀ j < d.p.n, ∑ i ∈ Finset.range d.p.n,
      elimEntry bc.rows true (tangentAt d guess) i j * z i = 0) → ∀ i < d.p.n, z i = 0)
    (hfac : Factorises lib d.p.view d.p.n fwd.cudssOf.matrixType fwd.cudssOf.matrixView (d.jacBcAt bc true guess))
    (v : List R)
    (hadj : let sol := (linearForward d lib backend fwd adj true bc guess).1
      Spec.Solves d.p.view d.p.n (d.adjointOp bc true true sol) v
        (adjBackend (d.adjointOp bc true true sol) v (adjointX0 bc v))) :
    let st := linearForward d lib backend fwd adj true bc guess
    linearReverse d lib adjBackend adj true bc st v = linearAdjoint d adjBackend true true bc st.1 v := by
  intro st
  obtain ⟨h1, h2⟩ := reuse_adjoint h hl hs0 bc hbc hused lib backend adjBackend fwd adj hreuse guess hsym hfac v
  have ht : ∀ i j, tangentAt d st.1 i j = tangentAt d guess i j := fun i j =>
    ((residual_affine h hl hs0 st.1).1 i j).trans ((residual_affine h hl hs0 guess).1 i j).symm
  obtain ⟨h3, h4⟩ := adjoint_solved h bc hbc hused true true st.1
    (fun _ => Or.inr ⟨rfl, fun i hi j hj => by rw [ht, ht]; exact hsym i hi j hj⟩)
    (by simp) v (adjBackend (d.adjointOp bc true true st.1) v (adjointX0 bc v)) hadj
  have hz := hreg (fun i => (linearReverse d lib adjBackend adj true bc st v).getD i 0
      - (linearAdjoint d adjBackend true true bc st.1 v).getD i 0) (by
    intro j hj
    have e1 := h2 j hj
    have e2 := h4 j hj
    have he : ∀ i, elimEntry bc.rows true (tangentAt d guess) i j = elimEntry bc.rows true (tangentAt d st.1) i j := by
      intro i
      unfold elimEntry
      rw [ht]
    rw [Finset.sum_congr rfl (fun i _ => by rw [he, mul_sub]), Finset.sum_sub_distrib]
    refine sub_eq_zero.mpr (e1.trans e2.symm))
  apply List.ext_getElem (h1.trans h3.symm)
  intro i hi1 hi2
  have := sub_eq_zero.mp (hz i (by rw [← h1]; exact hi1))
  rw [List.getD_eq_getElem (linearReverse d lib adjBackend adj true bc st v) _ hi1,
    List.getD_eq_getElem (linearAdjoint d adjBackend true true bc st.1 v) _ hi2] at this
  exact this

/-- C132: without reuse the token plays no part: the forward result is the plain linear step and the adjoint is solved
anew at the returned solution. -/
theorem C132_fallback (d : Discretization R α β) (lib : TokenLib R Tok) (backend adjBackend : Backend R)
    (fwd adj : LinOpts) (hno : reuseFactor fwd adj = false) (symmetric : Bool) (bc : DirichletBC R) (guess v : List R)
    (fd ad : Bool) (hfd : fd = true ↔ ∃ o, fwd = .direct o) (had : ad = true ↔ ∃ o, adj = .direct o) :
    (linearForward d lib backend fwd adj symmetric bc guess).1 = linearStep d backend fd symmetric bc guess ∧
    linearReverse d lib adjBackend adj symmetric bc (linearForward d lib backend fwd adj symmetric bc guess) v
      = linearAdjoint d adjBackend ad symmetric bc (linearStep d backend fd symmetric bc guess) v := by
  have key : ∀ (o : LinOpts) (b : Bool), (b = true ↔ ∃ x, o = .direct x) → o.isDirect = b := by
    intro o b h
    cases o <;> cases b <;> simp_all [LinOpts.isDirect]
  simp [linearForward, hno, linearReverse, key fwd fd hfd, key adj ad had]

/-- C132 (the safeguard described in the source does not exist): on a machine with cuDSS, `create_linear_solver` with
automatic options, reuse requested and `symmetric_elimination=False` does *not* fall back to two factorisations. -/
theorem C132_row_elimination_still_reuses {ν : Type} (env : SolverEnv) (hgpu : env.rt.platform = .gpu)
    (hsp : env.rt.spineax = true) (o : DirectOptions) (ho : o.solver = "auto") (hr : o.reuse = true) (params : Bool) :
    ∃ f a, createLinear (ν := ν) env (.direct o) (.direct o) params false = .ok (.linear f a false) ∧
      reuseFactor f a = true := by
  have hd : detectAvailable env.rt "auto" = .ok ["cudss"] := by
    unfold detectAvailable
    simp [hgpu, hsp]
  refine ⟨.direct { o with solver := "cudss", cudss := { o.cudss with matrixType := .spd, matrixView :=
      (match env.view with | .upper => MatrixView.upper | .lower => MatrixView.lower | .full => o.cudss.matrixView) } },
    .direct { o with solver := "cudss", cudss := { o.cudss with matrixType := .spd, matrixView :=
      (match env.view with | .upper => MatrixView.upper | .lower => MatrixView.lower | .full => o.cudss.matrixView) } }, ?_, ?_⟩
  · simp [createLinear, lowerAmg, resolveSide, resolveDirect, ho, hd, cudssTypeOf, Except.map, bind, Except.bind]
    rfl
  · simp [reuseFactor, hr]

end

/-! ## A case, and what goes wrong without symmetry -/

/-- cuDSS with reuse, SPD. -/
def exReuse : LinOpts := .direct { solver := "cudss", cudss := { matrixType := .spd }, reuse := true }

/-- A library that keeps nothing and solves the symmetric example. -/
def exFactor : TokenLib ℤ Unit := ⟨fun _ _ _ => (), fun _ b => exBackend (.fn id) b []⟩

example := C132_forward_correct (exD_ok .full) (exD_lin .full) (exD_shapes0 .full) exHold (exHold_canonical .full)
  (exHold_used .full) exFactor exBackend exReuse exReuse rfl true [0, 7, 9] rfl
  (fun _ => by unfold Spec.MeetsBC; decide) (Or.inl rfl) (fun b => exBackend_solves .full true [0, 7, 9] [0] rfl b [])

theorem exHold_regular (sol : List ℤ) (z : ℕ → ℤ) (hz : ∀ j < (exD .full).p.n, ∑ i ∈ Finset.range (exD .full).p.n,
      elimEntry exHold.rows true (tangentAt (exD .full) sol) i j * z i = 0) : ∀ i < (exD .full).p.n, z i = 0 := by
  have hn : (exD .full).p.n = 3 := rfl
  have hE : ∀ i < 3, ∀ j < 3, elimEntry exHold.rows true (tangentAt (exD .full) sol) i j
      = ([[1, 0, 0], [0, 2, -1], [0, -1, 1]].getD i []).getD j 0 := by
    intro i hi j hj
    unfold elimEntry
    rw [exD_entries .full sol i hi j hj]
    revert i j
    decide
  rw [hn] at hz ⊢
  have key : ∀ j < 3, ∑ i ∈ Finset.range 3, ([[1, 0, 0], [0, 2, -1], [0, -1, 1]].getD i [] : List ℤ).getD j 0 * z i = 0 := by
    intro j hj
    exact (Finset.sum_congr rfl (fun i hi => by rw [hE i (by simpa using hi) j hj])).trans (hz j hj)
  have k0 := key 0 (by decide)
  have k1 := key 1 (by decide)
  have k2 := key 2 (by decide)
  simp [Finset.sum_range_succ] at k0 k1 k2
  intro i hi
  interval_cases i <;> omega

example (lib : TokenLib ℤ Unit) (b b' : Backend ℤ) (o : KrylovOptions) (o' : DirectOptions) (guess v : List ℤ) :=
  C132_fallback (exD .full) lib b b' (.krylov o) (.direct o') rfl true exHold guess v false true (by simp) (by simp)

example (v : List ℤ) := C132_adjoint_same (exD_ok .full) (exD_lin .full) (exD_shapes0 .full) exHold
  (exHold_canonical .full) (exHold_used .full) exFactor exBackend exBackend exReuse exReuse rfl [0, 7, 9]
  (exD_sym .full _) (exHold_regular _) (fun b => exBackend_solves .full true [0, 7, 9] [0] rfl b []) v
  (exBackend_solves_adjoint .full true _ v _)

/-- The two bars with row elimination: `[[1,0,0],[-1,2,-1],[0,-1,1]]`. -/
theorem exHold_rows (sol : List ℤ) : ∀ i < 3, ∀ j < 3, elimEntry exHold.rows false (tangentAt (exD .full) sol) i j
      = ([[1, 0, 0], [-1, 2, -1], [0, -1, 1]].getD i []).getD j 0 := by
  intro i hi j hj
  unfold elimEntry
  rw [exD_entries .full sol i hi j hj]
  revert i j
  decide

/-- C132 fails with row elimination: whatever the library, as long as it solves the forward system, the reverse pass
reports that the tip displacement does not depend on the prescribed value of the held node, while the adjoint system has
a solution, its only one, that says the derivative is `1`. -/
theorem C132_row_elimination_gradient_wrong {Tok : Type} (lib : TokenLib ℤ Tok) (backend adjBackend : Backend ℤ)
    (guess : List ℤ)
    (hfac : Factorises lib (exD .full).p.view (exD .full).p.n exReuse.cudssOf.matrixType exReuse.cudssOf.matrixView
      ((exD .full).jacBcAt exHold false guess)) :
    let st := linearForward (exD .full) lib backend exReuse exReuse false exHold guess
    bcValsCotangent exHold (linearReverse (exD .full) lib adjBackend exReuse false exHold st [0, 0, 1]) = [0] ∧
    ∀ x : List ℤ, (∀ j < 3, ∑ i ∈ Finset.range 3, Spec.rowEliminated exHold.rows (tangentAt (exD .full) st.1) i j
        * x.getD i 0 = [(0 : ℤ), 0, 1].getD j 0) ↔ x.getD 0 0 = 1 ∧ x.getD 1 0 = 1 ∧ x.getD 2 0 = 2 := by
  intro st
  have hn : (exD .full).p.n = 3 := rfl
  constructor
  · have hrev : linearReverse (exD .full) lib adjBackend exReuse false exHold st [0, 0, 1]
      = lib.solveWith (lib.factorize exReuse.cudssOf.matrixType exReuse.cudssOf.matrixView
          ((exD .full).jacBcAt exHold false guess)) [0, 0, 1] := rfl
    obtain ⟨h1, h2⟩ := hfac [0, 0, 1]
    rw [← hrev] at h1 h2
    have e0 := h2 0 (by rw [hn]; decide)
    rw [Finset.sum_congr rfl (fun j hj => by
      rw [completed_jacBcAt (exD_ok .full) exHold (exHold_canonical .full) (exHold_used .full) false guess (Or.inl rfl) 0 j
        (by rw [hn]; decide) (by simpa using hj), exHold_rows guess 0 (by decide) j (by simpa [hn] using hj)]), hn] at e0
    simp [Finset.sum_range_succ] at e0
    unfold bcValsCotangent gather
    simpa [exHold] using e0
  · intro x
    have hE : ∀ i < 3, ∀ j < 3, Spec.rowEliminated exHold.rows (tangentAt (exD .full) st.1) i j
        = ([[1, 0, 0], [-1, 2, -1], [0, -1, 1]].getD i []).getD j 0 := by
      intro i hi j hj
      unfold Spec.rowEliminated
      rw [exD_entries .full st.1 i hi j hj]
      revert i j
      decide
    have key : ∀ j < 3, ∑ i ∈ Finset.range 3, Spec.rowEliminated exHold.rows (tangentAt (exD .full) st.1) i j * x.getD i 0
        = ∑ i ∈ Finset.range 3, ([[1, 0, 0], [-1, 2, -1], [0, -1, 1]].getD i [] : List ℤ).getD j 0 * x.getD i 0 :=
      fun j hj => Finset.sum_congr rfl (fun i hi => by rw [hE i (by simpa using hi) j hj])
    constructor
    · intro hx
      have k0 := (key 0 (by decide)).symm.trans (hx 0 (by decide))
      have k1 := (key 1 (by decide)).symm.trans (hx 1 (by decide))
      have k2 := (key 2 (by decide)).symm.trans (hx 2 (by decide))
      simp only [Finset.sum_range_succ, Finset.sum_range_zero, List.getD_cons_succ, List.getD_cons_zero] at k0 k1 k2
      omega
    · rintro ⟨a, b, c⟩ j hj
      rw [key j hj]
      interval_cases j <;> simp only [Finset.sum_range_succ, Finset.sum_range_zero, List.getD_cons_succ,
        List.getD_cons_zero, a, b, c] <;> norm_num

/-- A library that solves the row-eliminated example: the hypothesis of `C132_row_elimination_gradient_wrong` is met. -/
example (backend adjBackend : Backend ℤ) (guess : List ℤ) := C132_row_elimination_gradient_wrong
  (⟨fun _ _ _ => (), fun _ b => [b.getD 0 0, b.getD 0 0 + b.getD 1 0 + b.getD 2 0,
    b.getD 0 0 + b.getD 1 0 + 2 * b.getD 2 0]⟩ : TokenLib ℤ Unit) backend adjBackend guess (by
  intro b
  refine ⟨rfl, fun i hi => ?_⟩
  have hi' : i < 3 := hi
  have hn : (exD .full).p.n = 3 := rfl
  rw [Finset.sum_congr rfl (fun j hj => by
    rw [completed_jacBcAt (exD_ok .full) exHold (exHold_canonical .full) (exHold_used .full) false guess (Or.inl rfl) i j
      hi (by simpa using hj), exHold_rows guess i hi' j (by simpa [hn] using hj)]), hn]
  interval_cases i <;> simp [Finset.sum_range_succ] <;> ring)

/-! ## The elimination asked for -/

/-- The elimination a plan uses (the reduced solver has none). -/
def planElimination {ν : Type} : Plan ν → Option Bool
  | .reduced _ _ => none
  | .linear _ _ s => some s
  | .newton _ _ _ s => some s
  | .newtonAmg _ _ s => some s
  | .extraAssembled _ _ _ s => some s
  | .extraHybrid _ _ _ s => some s

theorem newton_elimination {ν : Type} (env : SolverEnv) (f a : LinOpts) (cfg : Option ν) (params extra symmetric : Bool)
    (plan : Plan ν) (hp : createNewton env f a cfg params extra symmetric = .ok plan) :
    planElimination plan = some symmetric := by
  unfold createNewton at hp
  cases hr : rebuildOptions f with
  | some o =>
    rw [hr] at hp
    cases hp
    rfl
  | none =>
    rw [hr] at hp
    simp only [bind, Except.bind] at hp
    cases h1 : lowerAmg env symmetric params f with
    | error e => rw [h1] at hp; cases hp
    | ok f' =>
      rw [h1] at hp
      simp only at hp
      cases h2 : lowerAmg env symmetric params a with
      | error e => rw [h2] at hp; cases hp
      | ok a' =>
        rw [h2] at hp
        simp only at hp
        cases extra with
        | false => simp at hp; rw [← hp]; rfl
        | true =>
          simp only [if_true] at hp
          unfold createExtra at hp
          cases f' with
          | direct o =>
            simp only at hp
            split at hp
            · cases hp
            · cases hp; rfl
          | krylov o => cases hp; rfl
          | amg o => cases hp
          | unsupported => cases hp

theorem linear_elimination {ν : Type} (env : SolverEnv) (f a : LinOpts) (params symmetric : Bool)
    (plan : Plan ν) (hp : createLinear env f a params symmetric = .ok plan) :
    planElimination plan = some symmetric := by
  unfold createLinear at hp
  simp only [bind, Except.bind] at hp
  cases h1 : lowerAmg env symmetric params f with
  | error e => rw [h1] at hp; cases hp
  | ok f' =>
    rw [h1] at hp; simp only at hp
    cases h2 : lowerAmg env symmetric params a with
    | error e => rw [h2] at hp; cases hp
    | ok a' =>
      rw [h2] at hp; simp only at hp
      cases h3 : resolveSide env .spd f' with
      | error e => rw [h3] at hp; cases hp
      | ok f'' =>
        rw [h3] at hp; simp only at hp
        cases h4 : resolveSide env .spd a' with
        | error e => rw [h4] at hp; cases hp
        | ok a'' =>
          rw [h4] at hp; simp only at hp
          cases hp; rfl

/-- C133 (what holds, and what does not): every solver `create_solver` returns without a prolongation eliminates boundary
rows the way `symmetric_elimination` says if it is a Newton solver, and always symmetrically if `linear=True`. -/
theorem C133_elimination_partial {ν : Type} (env : SolverEnv) (r : Request ν) (hP : r.P = false) (plan : Plan ν)
    (hp : createSolver env r = .ok plan) :
    planElimination plan = some (r.linear || r.symmetric) := by
  unfold createSolver at hp
  simp only [hP, Bool.and_false, Bool.false_eq_true, if_false, bind, Except.bind] at hp
  split at hp
  · cases hp
  · split at hp
    · cases hp
    · split at hp
      · cases hp
      · cases h1 : resolveAuto env (env.property r.symmetric) (r.opts.getD (.direct {})) with
        | error e => rw [h1] at hp; cases hp
        | ok f =>
          rw [h1] at hp; simp only at hp
          cases h2 : resolveAuto env (env.property r.symmetric) (r.adj.getD (r.opts.getD (.direct {}))) with
          | error e => rw [h2] at hp; cases hp
          | ok a =>
            rw [h2] at hp; simp only at hp
            cases hl : r.linear with
            | true =>
              rw [hl] at hp
              simpa using linear_elimination env f a r.params true plan hp
            | false =>
              rw [hl] at hp
              simpa using newton_elimination env f a r.newton r.params r.extra r.symmetric plan hp

/-- C133 fails for linear solvers: a request with `linear=True, symmetric_elimination=False` never gets row elimination. -/
theorem C133_linear_ignores_choice {ν : Type} (env : SolverEnv) (r : Request ν) (hP : r.P = false)
    (hl : r.linear = true) (hs : r.symmetric = false) (plan : Plan ν) (hp : createSolver env r = .ok plan) :
    planElimination plan ≠ some r.symmetric := by
  rw [C133_elimination_partial env r hP plan hp, hl, hs]
  simp

/-- Such requests are accepted. -/
example : ∃ plan, createSolver (ν := Unit) ⟨⟨.cpu, false, false, false⟩, .full, fun _ => .general, 0, true⟩
    { opts := some (.direct { solver := "spsolve" }), adj := none, newton := none, linear := true, P := false,
      params := true, extra := false, symmetric := false } = .ok plan ∧ planElimination plan = some true := ⟨_, rfl, rfl⟩

/-- C133: why it matters. Incremental loading on the two bars: the condition given per call moves the held node to `1`
and the solver starts from the previous solution. With the row elimination asked for, an exact backend reaches
equilibrium (C16); with the symmetric elimination that is used instead, every exact backend leaves the interior out of
equilibrium. -/
theorem C133_load_step_wrong (backend : Backend ℤ)
    (hsolve : ∀ b x0, Spec.Solves (exD .full).p.view (exD .full).p.n
      ((exD .full).forwardOp (exHold.replaceVals [1]) true true [0, -6, -8]) b
      (backend ((exD .full).forwardOp (exHold.replaceVals [1]) true true [0, -6, -8]) b x0)) :
    linearSolver (exD .full) backend true true exHold (some [0, -6, -8]) (some (exHold.replaceVals [1])) = [1, -6, -8] ∧
    ((exD .full).residualAt [1, -6, -8]).getD 1 0 = -1 := by
  refine ⟨?_, by decide⟩
  have hn : (exD .full).p.n = 3 := rfl
  have hc : CanonicalBC (exD .full).p.n (exHold.replaceVals [1]) := by
    have := exHold_canonical .full
    exact ⟨this.sorted, this.lt, this.maskLength, this.mask, rfl, this.total⟩
  unfold linearSolver linearStep
  simp only [Option.getD_some]
  generalize createX0 (exHold.replaceVals [1]) [0, -6, -8] = x0
  have hres : vneg ((exD .full).resBc (exHold.replaceVals [1]) [0, -6, -8]) = [1, 0, 0] := by decide
  rw [hres]
  obtain ⟨h1, h2⟩ := hsolve [1, 0, 0] x0
  generalize backend ((exD .full).forwardOp (exHold.replaceVals [1]) true true [0, -6, -8]) [1, 0, 0] x0 = x at h1 h2
  have hE : ∀ i < 3, ∀ j < 3, elimEntry [0] true (tangentAt (exD .full) [0, -6, -8]) i j
      = ([[1, 0, 0], [0, 2, -1], [0, -1, 1]].getD i []).getD j 0 := by
    intro i hi j hj
    unfold elimEntry
    rw [exD_entries .full _ i hi j hj]
    revert i j
    decide
  have key : ∀ i < 3, ∑ j ∈ Finset.range 3, ([[1, 0, 0], [0, 2, -1], [0, -1, 1]].getD i [] : List ℤ).getD j 0 * x.getD j 0
      = [(1 : ℤ), 0, 0].getD i 0 := by
    intro i hi
    rw [← h2 i hi, hn]
    refine Finset.sum_congr rfl (fun j hj => ?_)
    have hj' : j < 3 := by simpa using hj
    rw [completed_jacBcAt (exD_ok .full) (exHold.replaceVals [1]) hc (exHold_used .full) true _ (Or.inl rfl) i j hi hj']
    rw [← hE i hi j hj']
    rfl
  have k0 := key 0 (by decide)
  have k1 := key 1 (by decide)
  have k2 := key 2 (by decide)
  simp only [Finset.sum_range_succ, Finset.sum_range_zero, List.getD_cons_succ, List.getD_cons_zero] at k0 k1 k2
  rw [hn] at h1
  match x, h1 with
  | [a, b, c], _ =>
    simp only [List.getD_cons_succ, List.getD_cons_zero] at k0 k1 k2
    have ha : a = 1 := by omega
    have hb : b = 0 := by omega
    have hc : c = 0 := by omega
    subst ha; subst hb; subst hc
    decide

example := C133_load_step_wrong exBackend (fun b x0 => exBackend_solves .full true _ [1] rfl b x0)

/-! ## The Jacobi preconditioner -/

section
variable {K : Type} [Field K]

/-- C134: the diagonal taken from a coordinate matrix is the diagonal of the matrix it stands for: duplicates add up, and
off-diagonal entries do not count. -/
theorem C134_diagonal (n : ℕ) (idx : List (ℕ × ℕ)) (data : List K) (i : ℕ) (hi : i < n) :
    (bcooDiagonal n idx data).getD i 0
      = (((idx.zip data).filter (fun p => p.1 == (i, i))).map (·.2)).sum := by
  unfold bcooDiagonal
  rw [segmentSum_getD _ _ _ _ hi]
  unfold segSumAt
  induction idx generalizing data with
  | nil => simp
  | cons rc t ih =>
    cases data with
    | nil => simp
    | cons x xs =>
      have := ih xs
      obtain ⟨r, c⟩ := rc
      simp only [List.map_cons, List.zipWith_cons_cons, List.zip_cons_cons]
      by_cases hrc : r = c
      · subst hrc
        by_cases hri : r = i
        · subst hri
          simp_all
        · simp_all
      · have hne : ¬ ((r, c) = (i, i)) := by
          rintro h
          simp only [Prod.mk.injEq] at h
          omega
        have hni : n ≠ i := by omega
        simp_all

/-- C134: the preconditioner multiplies each component by the inverse of the shifted diagonal. -/
theorem C134_apply (diag x : List K) (shift : K) (hl : diag.length = x.length) (i : ℕ) (hi : i < x.length) :
    (jacobiApply diag shift x).getD i 0 = x.getD i 0 / (diag.getD i 0 + shift) := by
  have h1 : i < diag.length := by omega
  unfold jacobiApply
  rw [List.getD_eq_getElem _ _ (by simp [hi, h1]), List.getElem_zipWith, List.getElem_map,
    List.getD_eq_getElem x _ hi, List.getD_eq_getElem diag _ h1]
  rw [one_div, div_eq_mul_inv, mul_comm]

/-- C134: Jacobi preconditioning is used exactly when it is asked for, no other preconditioner is given and the operator is
a matrix; a given preconditioner always wins. -/
theorem C134_choice (o : KrylovOptions) (A : KrylovOperator K) :
    (∀ id, o.preconditioner = some id → choosePrecond o A = some (.given id)) ∧
    (o.preconditioner = none → o.useJacobi = false → choosePrecond o A = none) ∧
    (o.preconditioner = none → o.useJacobi = true →
      (∀ n idx data, A = .bcoo n idx data → choosePrecond o A = some (.jacobi (bcooDiagonal n idx data) (o.jacobiShift : K))) ∧
      (∀ M, A = .csr M → choosePrecond o A = some (.jacobi M.diagonal (o.jacobiShift : K)))) := by
  refine ⟨fun id h => by simp [choosePrecond, h], fun h h' => by simp [choosePrecond, h, h'], fun h h' => ⟨?_, ?_⟩⟩
  · rintro n idx data rfl; simp [choosePrecond, h, h']
  · rintro M rfl; simp [choosePrecond, h, h']

/-- C134 fails on the solvers `create_solver` returns: a Krylov method there always gets a callable operator
(`linear.py:393-399`, `newton.py:953`), and `use_jacobi_preconditioner=True` is then without effect. -/
theorem C134_ignored_matrix_free (o : KrylovOptions) (f : List K → List K) (h : o.preconditioner = none) :
    choosePrecond o (.callable f) = none := by
  unfold choosePrecond
  simp [h]

end

/-- C134: over an ordered field the preconditioner is positive definite as soon as the shifted diagonal is positive, which
CG needs. -/
theorem C134_definite {K : Type} [Field K] [LinearOrder K] [IsStrictOrderedRing K] (n : ℕ) (diag x : List K) (shift : K)
    (hd : diag.length = n) (hx : x.length = n) (hpos : ∀ i < n, 0 < diag.getD i 0 + shift) (hne : ∃ i < n, x.getD i 0 ≠ 0) :
    0 < ∑ i ∈ Finset.range n, x.getD i 0 * (jacobiApply diag shift x).getD i 0 := by
  have hterm : ∀ i ∈ Finset.range n, x.getD i 0 * (jacobiApply diag shift x).getD i 0
      = x.getD i 0 ^ 2 / (diag.getD i 0 + shift) := by
    intro i hi
    have hi' : i < n := by simpa using hi
    rw [C134_apply diag x shift (by omega) i (by omega)]
    ring
  rw [Finset.sum_congr rfl hterm]
  obtain ⟨k, hk, hxk⟩ := hne
  apply Finset.sum_pos'
  · intro i hi
    have := hpos i (by simpa using hi)
    positivity
  · refine ⟨k, by simpa using hk, ?_⟩
    have := hpos k hk
    positivity

example : 0 < ∑ i ∈ Finset.range 2, ([1, -2] : List ℚ).getD i 0 *
    (jacobiApply (bcooDiagonal 2 [(0, 0), (1, 1), (0, 1), (1, 1)] [3, 1, -7, 1]) (1 / 2) [1, -2]).getD i 0 :=
  C134_definite 2 (bcooDiagonal 2 [(0, 0), (1, 1), (0, 1), (1, 1)] [3, 1, -7, 1]) [1, -2] (1 / 2) rfl rfl
    (by decide +kernel) ⟨0, by decide, by norm_num⟩

example : bcooDiagonal 2 [(0, 0), (1, 1), (0, 1), (1, 1)] ([3, 1, -7, 1] : List ℤ) = [3, 2] := by decide

/-- The same step with the row elimination that was asked for reaches equilibrium with any exact backend. -/
example (backend : Backend ℤ)
    (hsolve : ∀ b x0, Spec.Solves (exD .full).p.view (exD .full).p.n
      ((exD .full).forwardOp (exHold.replaceVals [1]) true false [0, -6, -8]) b
      (backend ((exD .full).forwardOp (exHold.replaceVals [1]) true false [0, -6, -8]) b x0)) :=
  C16_linear_solve_correct (exD_ok .full) (exD_lin .full) (exD_shapes0 .full) (exHold.replaceVals [1])
    (by have := exHold_canonical .full
        exact ⟨this.sorted, this.lt, this.maskLength, this.mask, rfl, this.total⟩) (exHold_used .full) backend true false
    [0, -6, -8] rfl (by simp) (fun _ => Or.inl rfl) hsolve

end Verif.Props
