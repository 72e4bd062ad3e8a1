import Verif.Model.Options
import Mathlib.Tactic.SplitIfs
import Mathlib.Tactic.FinCases
import Mathlib.Tactic.Linarith

/-!
# C48, C49: option resolution and dispatch of `create_solver`
-/

namespace Verif.Props
open Verif.Model

/-! ### C48 -/

/-- Specification: the direct backend called `s` works in this runtime. -/
def Works (rt : Runtime) (s : String) : Prop :=
  (s = "spsolve" ∧ rt.platform = .cpu) ∨ (s = "cudss" ∧ rt.platform = .gpu ∧ rt.spineax = true) ∨
    (s = "cholmod" ∧ rt.platform = .cpu ∧ rt.cholmod = true) ∨ (s = "umfpack" ∧ rt.platform = .cpu ∧ rt.umfpack = true)

/-- Specification: the backend may factorise a matrix with this property. LU (spsolve, umfpack) and cuDSS (told the type)
take anything; Cholesky only SPD matrices. -/
def Admissible (mp : MatProp) (s : String) : Prop := s = "cholmod" → mp = .spd

theorem detect_explicit (rt : Runtime) (s : String) (h : s ≠ "auto") :
    (Works rt s → detectAvailable rt s = .ok [s]) ∧ (¬ Works rt s → ∃ e, detectAvailable rt s = .error e) := by
  obtain ⟨pl, a, b, c⟩ := rt
  unfold detectAvailable
  simp only
  rw [if_pos h]
  by_cases h1 : s = "spsolve"
  · subst h1
    cases pl <;> simp [Works]
  by_cases h2 : s = "cudss"
  · subst h2
    cases pl <;> cases a <;> simp [Works]
  by_cases h3 : s = "cholmod"
  · subst h3
    cases pl <;> cases b <;> simp [Works]
  by_cases h4 : s = "umfpack"
  · subst h4
    cases pl <;> cases c <;> simp [Works]
  · simp [Works, h1, h2, h3, h4]

/-- What an automatic resolution returns, case by case on the runtime. -/
theorem resolve_auto_eq (rt : Runtime) (o : DirectOptions) (mp : MatProp) (view : MatrixView) (h : o.solver = "auto") :
    resolveDirect rt o mp view =
      match rt.platform with
      | .cpu =>
        .ok { o with
          solver := if mp = .spd ∧ rt.cholmod = true then "cholmod" else if rt.umfpack then "umfpack" else "spsolve"
          sk := { o.sk with lower := if mp = .spd then (match view with | .upper => false | _ => true) else o.sk.lower } }
      | .gpu =>
        if rt.spineax then
          .ok { o with
            solver := "cudss"
            cudss := { o.cudss with
              matrixType := cudssTypeOf mp
              matrixView := match view with | .upper => .upper | .lower => .lower | .full => o.cudss.matrixView } }
        else .error .runtimeError
      | .other => .error .runtimeError := by
  obtain ⟨pl, a, b, c⟩ := rt
  unfold resolveDirect
  rw [if_neg (by simpa using h)]
  cases pl <;> cases a <;> cases b <;> cases c <;> cases mp <;> cases view <;>
    simp [detectAvailable, chooseCpu, cudssTypeOf]

/-- **C48.** Automatic selection returns a backend that works here and is admissible for the detected property (Cholesky only
for SPD); cuDSS is told exactly that property. -/
theorem C48_auto_selection (rt : Runtime) (o r : DirectOptions) (mp : MatProp) (view : MatrixView) (h : o.solver = "auto")
    (hr : resolveDirect rt o mp view = .ok r) :
    Works rt r.solver ∧ Admissible mp r.solver ∧ (r.solver = "cudss" → (r.cudss.matrixType = .spd ↔ mp = .spd) ∧
      (r.cudss.matrixType = .symmetric ↔ mp = .symmetric) ∧ (r.cudss.matrixType = .general ↔ mp = .general)) := by
  rw [resolve_auto_eq rt o mp view h] at hr
  obtain ⟨pl, a, b, c⟩ := rt
  cases pl with
  | cpu =>
    simp only [Except.ok.injEq] at hr
    subst hr
    cases b <;> cases c <;> cases mp <;> simp [Works, Admissible]
  | gpu =>
    cases a with
    | false => simp at hr
    | true =>
      simp only [if_true, Except.ok.injEq] at hr
      subst hr
      cases mp <;> simp [Works, Admissible, cudssTypeOf]
  | other => simp at hr

/-- **C48.** It raises (`RuntimeError`) exactly when no admissible backend works in this runtime. -/
theorem C48_raises_iff_none (rt : Runtime) (o : DirectOptions) (mp : MatProp) (view : MatrixView) (h : o.solver = "auto") :
    resolveDirect rt o mp view = .error .runtimeError ↔ ¬ ∃ s, Works rt s ∧ Admissible mp s := by
  rw [resolve_auto_eq rt o mp view h]
  obtain ⟨pl, a, b, c⟩ := rt
  cases pl with
  | cpu =>
    simp only [reduceCtorEq, false_iff, not_not]
    exact ⟨"spsolve", Or.inl ⟨rfl, rfl⟩, by simp [Admissible]⟩
  | gpu =>
    cases a with
    | false => simp [Works]
    | true =>
      simp only [if_true, reduceCtorEq, false_iff, not_not]
      exact ⟨"cudss", by simp [Works], by simp [Admissible]⟩
  | other => simp [Works]

/-- **C48.** An explicitly named backend is never replaced: the options come back unchanged if it works here, and an error is
raised otherwise. -/
theorem C48_explicit (rt : Runtime) (o : DirectOptions) (mp : MatProp) (view : MatrixView) (h : o.solver ≠ "auto") :
    (Works rt o.solver → resolveDirect rt o mp view = .ok o) ∧
      (¬ Works rt o.solver → ∃ e, resolveDirect rt o mp view = .error e) := by
  obtain ⟨h1, h2⟩ := detect_explicit rt o.solver h
  unfold resolveDirect
  rw [if_pos h]
  constructor
  · intro hw
    rw [h1 hw]
  · intro hw
    obtain ⟨e, he⟩ := h2 hw
    exact ⟨e, by rw [he]⟩

/-- **C48, partial.** The user's settings survive automatic selection, except those selection computes itself: factorisation
type and (for a triangular storage) view of cuDSS, and the `lower` flag of Cholesky for SPD matrices. -/
theorem C48_options_kept_partial (rt : Runtime) (o r : DirectOptions) (mp : MatProp) (view : MatrixView)
    (hr : resolveDirect rt o mp view = .ok r) :
    r.reuse = o.reuse ∧ r.check = o.check ∧ r.threshold = o.threshold ∧ r.verbose = o.verbose ∧
      r.cudss.deviceId = o.cudss.deviceId ∧ r.sk.vmapMethod = o.sk.vmapMethod ∧ r.sk.order = o.sk.order ∧
      (view = .full → r.cudss.matrixView = o.cudss.matrixView) ∧ (mp ≠ .spd → r.sk.lower = o.sk.lower) := by
  by_cases h : o.solver = "auto"
  · rw [resolve_auto_eq rt o mp view h] at hr
    obtain ⟨pl, a, b, c⟩ := rt
    cases pl with
    | cpu =>
      simp only [Except.ok.injEq] at hr
      subst hr
      cases mp <;> simp
    | gpu =>
      cases a with
      | false => simp at hr
      | true =>
        simp only [if_true, Except.ok.injEq] at hr
        subst hr
        cases view <;> simp
    | other => simp at hr
  · by_cases hw : Works rt o.solver
    · rw [(C48_explicit rt o mp view h).1 hw] at hr
      obtain rfl := Except.ok.inj hr
      simp
    · obtain ⟨e, he⟩ := (C48_explicit rt o mp view h).2 hw
      rw [he] at hr
      cases hr

/-- Resolving twice is resolving once, whatever property the second call is told. -/
theorem C48_idempotent (rt : Runtime) (o r : DirectOptions) (mp mp' : MatProp) (view view' : MatrixView)
    (hr : resolveDirect rt o mp view = .ok r) : resolveDirect rt r mp' view' = .ok r := by
  have key : ∀ q : DirectOptions, Works rt q.solver → resolveDirect rt q mp' view' = .ok q := by
    intro q hq
    have : q.solver ≠ "auto" := by
      intro h
      rw [h] at hq
      simp [Works] at hq
    exact (C48_explicit rt q mp' view' this).1 hq
  by_cases h : o.solver = "auto"
  · exact key r (C48_auto_selection rt o r mp view h hr).1
  · by_cases hw : Works rt o.solver
    · rw [(C48_explicit rt o mp view h).1 hw] at hr
      obtain rfl := Except.ok.inj hr
      exact key _ hw
    · obtain ⟨e, he⟩ := (C48_explicit rt o mp view h).2 hw
      rw [he] at hr
      cases hr

/-- A CPU without scikit-sparse. -/
def exCpuBare : Runtime := { platform := .cpu, spineax := false, cholmod := false, umfpack := false }

/-- A CPU with scikit-sparse. -/
def exCpuFull : Runtime := { platform := .cpu, spineax := false, cholmod := true, umfpack := true }

/-- Cholesky is chosen for SPD, LU otherwise, SciPy's LU without scikit-sparse, an error on a GPU without cuDSS. -/
example : (resolveDirect exCpuFull {} .spd .upper).toOption.map (·.solver) = some "cholmod" ∧
    (resolveDirect exCpuFull {} .general .full).toOption.map (·.solver) = some "umfpack" ∧
    (resolveDirect exCpuBare {} .spd .full).toOption.map (·.solver) = some "spsolve" ∧
    resolveDirect { exCpuFull with platform := .gpu } {} .spd .full = .error .runtimeError := by
  refine ⟨?_, ?_, ?_, ?_⟩ <;> decide +kernel

/-- **C48 fails for triangular storage.** Without Cholesky, a matrix of which only the upper half is stored is given to a
general LU backend, which takes the stored half for the whole matrix: for `[[2,1],[1,2]]` the stored half is `[[2,1],[0,2]]`,
whose solution for `b = (3,3)` is not `(1,1)`. -/
theorem C48_triangular_storage_gets_lu :
    (∀ o : DirectOptions, o.solver = "auto" →
      (resolveDirect exCpuBare o .spd .upper).toOption.map (·.solver) = some "spsolve") ∧
    (∀ x y : ℚ, 2 * x + 1 * y = 3 → 0 * x + 2 * y = 3 → ¬ (2 * x + 1 * y = 3 ∧ 1 * x + 2 * y = 3)) := by
  constructor
  · intro o h
    rw [resolve_auto_eq _ _ _ _ h]
    rfl
  · intro x y h1 h2 h3
    obtain ⟨h3, h4⟩ := h3
    have hx : x = 0 := by linarith
    have hy : y = 3 / 2 := by linarith
    subst hx hy
    norm_num at h1

/-- **C48, iterative.** The method chosen automatically fits the detected property: conjugate gradients only for SPD,
BiCGSTAB for symmetric, GMRES for general; a named method is kept. -/
theorem C48_iterative_selection (o : KrylovOptions) (mp : MatProp) :
    (o.solver ≠ "auto" → resolveIterative o mp = o) ∧
    (o.solver = "auto" → ((resolveIterative o mp).solver = "cg" ↔ mp = .spd) ∧
      ((resolveIterative o mp).solver = "bicgstab" ↔ mp = .symmetric) ∧
      ((resolveIterative o mp).solver = "gmres" ↔ mp = .general)) := by
  constructor
  · intro h
    unfold resolveIterative
    rw [if_pos h]
  · intro h
    unfold resolveIterative
    rw [if_neg (by simpa using h)]
    cases mp <;> simp [krylovOf]

/-- **C48, iterative, partial.** All other settings are kept, except the GMRES restart length. -/
theorem C48_iterative_options_partial (o : KrylovOptions) (mp : MatProp) :
    let r := resolveIterative o mp
    r.tol = o.tol ∧ r.atol = o.atol ∧ r.maxiter = o.maxiter ∧ r.preconditioner = o.preconditioner ∧
      r.useJacobi = o.useJacobi ∧ r.jacobiShift = o.jacobiShift ∧ r.x0Fn = o.x0Fn ∧ r.check = o.check ∧
      r.threshold = o.threshold ∧ r.verbose = o.verbose ∧ (o.restart = none → r.restart = none) := by
  intro r
  change _ ∧ _
  unfold r resolveIterative
  split_ifs <;> simp

/-- **C48 fails for the restart length.** With automatic selection the user's restart length is lost: whatever it is, GMRES
runs with 20. -/
theorem C48_restart_dropped (o : KrylovOptions) (k : ℕ) (h : o.solver = "auto") (hk : o.restart = some (k + 1)) :
    (resolveIterative o .general).solver = "gmres" ∧ gmresRestart o = k + 1 ∧
      gmresRestart (resolveIterative o .general) = 20 := by
  refine ⟨((C48_iterative_selection o .general).2 h).2.2.2 rfl, ?_, ?_⟩
  · unfold gmresRestart
    rw [hk]
  · unfold resolveIterative
    rw [if_neg (by simpa using h)]
    rfl

/-- **C48.** What the option constructors accept: `order=None` is documented but refused, Hermitian types are refused. -/
theorem C48_documented_order_none_rejected (m : String) (l : Bool) : SkOptions.make m none l = .error .valueError := by
  unfold SkOptions.make
  rw [if_pos (by simp)]

/-- A string, an integer and an enum member mean the same matrix type. -/
example : (CudssOptions.make (.str "spd") (.str "Full") 0).toOption = some { matrixType := .spd } ∧
    (CudssOptions.make (.int 3) (.int 0) 0).toOption = some { matrixType := .spd } ∧
    (CudssOptions.make (.enum .hpd) (.enum .full) 0).toOption = none ∧
    (CudssOptions.make (.int 5) (.enum .full) 0).toOption = none := by
  refine ⟨?_, ?_, ?_, ?_⟩ <;> decide +kernel


namespace Spec

/-- The codes of cuDSS: matrix types and views as numbered in its documentation. -/
def typeTable : List (ℤ × String × CudssType) :=
  [(0, "GENERAL", .general), (1, "SYMMETRIC", .symmetric), (2, "HERMITIAN", .hermitian), (3, "SPD", .spd), (4, "HPD", .hpd)]

def viewTable : List (ℤ × String × MatrixView) := [(0, "FULL", .full), (1, "UPPER", .upper), (2, "LOWER", .lower)]

end Spec

/-- C48: a cuDSS matrix type or view may be given as enum member, as its name in any case, or as its number; anything else is a
`ValueError`, and so are the two complex types. -/
theorem C48_config_values (s : String) (z : ℤ) :
    (∀ e, parseCudssType (.str s) = .ok e ↔ ∃ q ∈ Spec.typeTable, q.2.1 = s.toUpper ∧ q.2.2 = e) ∧
    (∀ e, parseCudssType (.int z) = .ok e ↔ ∃ q ∈ Spec.typeTable, q.1 = z ∧ q.2.2 = e) ∧
    (∀ e, parseCudssView (.str s) = .ok e ↔ ∃ q ∈ Spec.viewTable, q.2.1 = s.toUpper ∧ q.2.2 = e) ∧
    (∀ e, parseCudssView (.int z) = .ok e ↔ ∃ q ∈ Spec.viewTable, q.1 = z ∧ q.2.2 = e) ∧
    (∀ t v dev, (∃ o, CudssOptions.make t v dev = .ok o) ↔
      (∃ t', parseCudssType t = .ok t' ∧ t' ≠ .hermitian ∧ t' ≠ .hpd) ∧ ∃ v', parseCudssView v = .ok v') ∧
    (∀ t v dev o, CudssOptions.make t v dev = .ok o →
      parseCudssType t = .ok o.matrixType ∧ parseCudssView v = .ok o.matrixView ∧ o.deviceId = dev) ∧
    (∀ t v dev e, CudssOptions.make t v dev = .error e → e = .valueError) := by
  have perr : ∀ t e, parseCudssType t = .error e → e = .valueError := by
    intro t e h
    cases t with
    | enum _ => simp [parseCudssType] at h
    | str s => unfold parseCudssType at h; simp only at h; split at h <;> simp_all
    | int z => unfold parseCudssType at h; simp only at h; split_ifs at h; simp_all
  have verr : ∀ t e, parseCudssView t = .error e → e = .valueError := by
    intro t e h
    cases t with
    | enum _ => simp [parseCudssView] at h
    | str s => unfold parseCudssView at h; simp only at h; split at h <;> simp_all
    | int z => unfold parseCudssView at h; simp only at h; split_ifs at h; simp_all
  refine ⟨?_, ?_, ?_, ?_, ?_, ?_, ?_⟩
  · intro e
    unfold parseCudssType Spec.typeTable
    simp only [List.mem_cons, List.not_mem_nil, or_false, exists_eq_or_imp, exists_eq_left]
    split <;> simp_all <;> grind
  · intro e
    unfold parseCudssType Spec.typeTable
    simp only [List.mem_cons, List.not_mem_nil, or_false, exists_eq_or_imp, exists_eq_left]
    split_ifs <;> simp_all <;> grind
  · intro e
    unfold parseCudssView Spec.viewTable
    simp only [List.mem_cons, List.not_mem_nil, or_false, exists_eq_or_imp, exists_eq_left]
    split <;> simp_all <;> grind
  · intro e
    unfold parseCudssView Spec.viewTable
    simp only [List.mem_cons, List.not_mem_nil, or_false, exists_eq_or_imp, exists_eq_left]
    split_ifs <;> simp_all <;> grind
  · intro t v dev
    unfold CudssOptions.make
    cases h1 : parseCudssType t with
    | error e => simp [bind, Except.bind]
    | ok t' =>
      cases h2 : parseCudssView v with
      | error e => simp [bind, Except.bind]
      | ok v' =>
        simp only [bind, Except.bind]
        split_ifs with h
        · simp only [reduceCtorEq, exists_false, Except.ok.injEq, exists_eq_left', false_iff, not_and]
          intro h'; exfalso; tauto
        · simp only [Except.ok.injEq, exists_eq', exists_eq_left', true_iff]
          tauto
  · intro t v dev o
    unfold CudssOptions.make
    cases h1 : parseCudssType t with
    | error e => simp [bind, Except.bind]
    | ok t' =>
      cases h2 : parseCudssView v with
      | error e => simp [bind, Except.bind]
      | ok v' =>
        simp only [bind, Except.bind]
        split_ifs with h
        · simp
        · intro ho
          obtain rfl := Except.ok.inj ho
          exact ⟨rfl, rfl, rfl⟩
  · intro t v dev e
    unfold CudssOptions.make
    cases h1 : parseCudssType t with
    | error e' => intro h; simp only [bind, Except.bind, Except.error.injEq] at h; exact h ▸ perr t e' h1
    | ok t' =>
      cases h2 : parseCudssView v with
      | error e' => intro h; simp only [bind, Except.bind, Except.error.injEq] at h; exact h ▸ verr v e' h2
      | ok v' =>
        simp only [bind, Except.bind]
        split_ifs with h
        · intro h; exact (Except.error.inj h).symm
        · simp

/-- C48: a name passes the check of the options exactly when it is `auto` or one that resolution can meet: for a direct solver some
runtime runs it, for an iterative one it is a method chosen for some property. -/
theorem C48_names (o : DirectOptions) (k : KrylovOptions) :
    (o.valid = true ↔ o.solver = "auto" ∨ ∃ rt, Works rt o.solver) ∧
      (k.valid = true ↔ k.solver = "auto" ∨ ∃ mp, (resolveIterative { k with solver := "auto" } mp).solver = k.solver) := by
  constructor
  · simp only [DirectOptions.valid, decide_eq_true_eq, List.mem_cons, List.not_mem_nil, or_false, Works]
    constructor
    · rintro (h | h | h | h | h)
      · exact Or.inl h
      · exact Or.inr ⟨⟨.gpu, true, true, true⟩, by simp [h]⟩
      · exact Or.inr ⟨⟨.cpu, true, true, true⟩, by simp [h]⟩
      · exact Or.inr ⟨⟨.cpu, true, true, true⟩, by simp [h]⟩
      · exact Or.inr ⟨⟨.cpu, true, true, true⟩, by simp [h]⟩
    · rintro (h | ⟨rt, h⟩) <;> tauto
  · simp only [KrylovOptions.valid, decide_eq_true_eq, List.mem_cons, List.not_mem_nil, or_false, resolveIterative, ne_eq,
      not_true_eq_false, if_false]
    constructor
    · rintro (h | h | h | h)
      · exact Or.inl h
      · exact Or.inr ⟨.spd, h.symm⟩
      · exact Or.inr ⟨.symmetric, h.symm⟩
      · exact Or.inr ⟨.general, h.symm⟩
    · rintro (h | ⟨mp, h⟩)
      · exact Or.inl h
      · cases mp <;> simp only [krylovOf] at h <;> simp [← h]

example : parseCudssView (.int 1) = .ok .upper ∧ parseCudssType (.int 7) = .error .valueError := by
  constructor <;> rfl
end Verif.Props
