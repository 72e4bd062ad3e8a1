import Verif.Model.Profiler
import Verif.Props.Solve
import Mathlib.Logic.Function.Iterate
import Mathlib.Algebra.Order.BigOperators.Group.List
import Mathlib.Algebra.BigOperators.Group.List.Basic

/-!
# Properties of the profiling tools (C136)
-/

namespace Verif.Props
open Verif.Model

theorem dictIncr_get (name q : String) : ∀ d : List (String × ℕ),
    dictGet q (dictIncr name d) = dictGet q d + if q = name then 1 else 0 := by
  intro d
  induction d with
  | nil =>
    by_cases h : q = name
    · subst h; simp [dictIncr, dictGet]
    · simp [dictIncr, dictGet, h, Ne.symm h]
  | cons kv t ih =>
    obtain ⟨k, v⟩ := kv
    unfold dictIncr
    by_cases hk : k = name
    · subst hk
      rw [if_pos rfl]
      by_cases h : q = k
      · subst h; simp [dictGet]
      · simp [dictGet, Ne.symm h, h]
    · rw [if_neg hk]
      by_cases h : k = q
      · subst h; simp [dictGet, hk]
      · have e1 : dictGet q ((k, v) :: dictIncr name t) = dictGet q (dictIncr name t) := by simp [dictGet, h]
        have e2 : dictGet q ((k, v) :: t) = dictGet q t := by simp [dictGet, h]
        rw [e1, e2, ih]

theorem count_fold (q : String) : ∀ (eqns : List Eqn) (d : List (String × ℕ)),
    dictGet q (eqns.foldl (fun counts e => dictIncr e.name counts) d)
      = dictGet q d + (eqns.map Eqn.name).count q := by
  intro eqns
  induction eqns with
  | nil => intro d; simp
  | cons e t ih =>
    intro d
    rw [List.foldl_cons, ih, dictIncr_get, List.map_cons, List.count_cons]
    by_cases h : e.name = q
    · simp [h]; omega
    · simp [h, Ne.symm h]

theorem sum_incr (name : String) : ∀ d : List (String × ℕ),
    ((dictIncr name d).map (·.2)).sum = (d.map (·.2)).sum + 1 := by
  intro d
  induction d with
  | nil => simp [dictIncr]
  | cons kv t ih =>
    obtain ⟨k, v⟩ := kv
    unfold dictIncr
    split
    · simp; omega
    · simp [ih]; omega

/-- C136: the reported count of each primitive is the number of equations of the traced function using it, at the top
level, and the counts add up to the reported number of equations. Nested jaxprs (loop bodies, branches) are not counted. -/
theorem C136_primitive_counts_partial (eqns : List Eqn) :
    (∀ q, dictGet q (countPrimitives eqns) = (eqns.map Eqn.name).count q) ∧
    ((countPrimitives eqns).map (·.2)).sum = eqns.length := by
  refine ⟨fun q => ?_, ?_⟩
  · unfold countPrimitives
    rw [count_fold]
    simp [dictGet]
  · have : ∀ (l : List Eqn) (d : List (String × ℕ)),
        ((l.foldl (fun counts e => dictIncr e.name counts) d).map (·.2)).sum = (d.map (·.2)).sum + l.length := by
      intro l
      induction l with
      | nil => intro d; simp
      | cons e t ih => intro d; rw [List.foldl_cons, ih, sum_incr, List.length_cons]; omega
    unfold countPrimitives
    rw [this]
    simp

/-- C136 fails for nested programs: two programs that differ only in the body of a loop, one of them with many more
operations, are reported alike. -/
theorem C136_nested_not_counted (name : String) (inner : List Eqn) :
    countPrimitives [.mk name inner] = countPrimitives [.mk name []] := rfl

example : countPrimitives [.mk "mul" [], .mk "while" [.mk "mul" [], .mk "add" []], .mk "mul" []] = [("mul", 2), ("while", 1)] := by
  decide

/-- C136: `time_fn` calls the function `warmup + n_runs` times, returns what the last call returned, and records exactly
the times of the last `n_runs` calls in order; with no call at all it raises. -/
theorem C136_time_fn {γ T : Type} (f : ℕ → γ) (clock : ℕ → T) (nRuns warmup : ℕ) :
    (timeFn f clock nRuns warmup = none ↔ warmup = 0 ∧ nRuns = 0) ∧
    ∀ out rec, timeFn f clock nRuns warmup = some (out, rec) →
      out = f (warmup + nRuns - 1) ∧ rec.length = nRuns ∧ rec.map (·.2) = (List.range' warmup nRuns).map clock ∧
      (nRuns ≠ 1 → (rec.map (·.1)).Nodup) := by
  unfold timeFn
  constructor
  · split <;> simp_all
  · intro out rec h
    split at h
    · cases h
    · simp only [Option.some.injEq, Prod.mk.injEq] at h
      obtain ⟨rfl, rfl⟩ := h
      refine ⟨rfl, by simp, ?_, ?_⟩
      · apply List.ext_getElem
        · simp
        · intro i h1 h2
          simp
      · intro hn
        simp only [if_neg hn, List.map_map]
        refine List.Nodup.map ?_ List.nodup_range
        intro a b hab
        simpa using hab

example := C136_time_fn (fun k => k * k) (fun k => (k : ℤ)) 3 2

/-- C136: on a machine with one device per platform in use the snapshot gives the number and total size of the arrays on
each device. -/
theorem C136_memory_partial (devices : List Device) (live : List LiveArray)
    (hone : ∀ dev ∈ devices, ∀ a ∈ live, a.platform = dev.platform ↔ a.device = dev.id) (dev : Device)
    (hd : dev ∈ devices) :
    (dev.id, (live.filter fun a => a.device = dev.id).length, ((live.filter fun a => a.device = dev.id).map (·.nbytes)).sum)
      ∈ memorySnapshot devices live := by
  unfold memorySnapshot
  refine List.mem_map.mpr ⟨dev, hd, ?_⟩
  have e : (live.filter fun a => decide (a.platform = dev.platform)) = live.filter fun a => decide (a.device = dev.id) := by
    apply List.filter_congr
    intro a ha
    simp [hone dev hd a ha]
  simp only [e]

example := C136_memory_partial [⟨"cpu", 0⟩] [⟨"cpu", 0, 8⟩, ⟨"cpu", 0, 16⟩] (by simp) ⟨"cpu", 0⟩ (by simp)

/-- C136 fails with several devices of a platform: each is reported to hold all arrays of the platform. -/
theorem C136_memory_counted_per_platform (p : String) (ids : List ℕ) (live : List LiveArray) (hp : ∀ a ∈ live, a.platform = p) :
    memorySnapshot (ids.map fun i => ⟨p, i⟩) live = ids.map fun i => (i, live.length, (live.map (·.nbytes)).sum) := by
  have e : (live.filter fun a => decide (a.platform = p)) = live := by
    rw [List.filter_eq_self]
    intro a ha
    simp [hp a ha]
  unfold memorySnapshot
  simp only [List.map_map]
  apply List.map_congr_left
  intro i _
  simp only [Function.comp, e]

example : memorySnapshot [⟨"gpu", 0⟩, ⟨"gpu", 1⟩] [⟨"gpu", 0, 100⟩] = [(0, 1, 100), (1, 1, 100)] := by decide

section
variable {R : Type} [CommRing R] [LinearOrder R] {α β : Type}

/-- One full Newton step: solve with the eliminated tangent, add. -/
def newtonStepPy (d : Discretization R α β) (bc : DirichletBC R) (solve : CSRMatrix R → List R → List R) (u : List R) : List R :=
  vadd u (solve (d.jacBcAt bc true u) (vneg (d.resBc bc u)))

theorem profileLoop_spec (d : Discretization R α β) (bc : DirichletBC R) (solve : CSRMatrix R → List R → List R)
    (norm : List R → R) (tol : R) : ∀ (k : ℕ) (sol : List R) (prof : SolverProfile R), prof.converged = false →
    ∃ m ≤ k, 
      ((profileLoop d bc solve norm tol k sol prof).2.norms = prof.norms ++ (List.range m).map fun j =>
        norm (d.resBc bc ((newtonStepPy d bc solve)^[j] sol))) ∧
      (profileLoop d bc solve norm tol k sol prof).2.steps = prof.steps + m ∧
      (((profileLoop d bc solve norm tol k sol prof).2.converged = true ∧ 0 < m ∧
        (profileLoop d bc solve norm tol k sol prof).1 = (newtonStepPy d bc solve)^[m - 1] sol ∧
        norm (d.resBc bc (profileLoop d bc solve norm tol k sol prof).1) < tol ∧
        ∀ j < m - 1, tol ≤ norm (d.resBc bc ((newtonStepPy d bc solve)^[j] sol))) ∨
       ((profileLoop d bc solve norm tol k sol prof).2.converged = false ∧ m = k ∧
        (profileLoop d bc solve norm tol k sol prof).1 = (newtonStepPy d bc solve)^[k] sol ∧
        ∀ j < k, tol ≤ norm (d.resBc bc ((newtonStepPy d bc solve)^[j] sol)))) := by
  intro k
  induction k with
  | zero => intro sol prof h; exact ⟨0, le_refl _, by simp [profileLoop, h]⟩
  | succ k ih =>
    intro sol prof h
    by_cases hc : norm (d.resBc bc sol) < tol
    · refine ⟨1, by omega, ?_⟩
      simp [profileLoop, hc]
    · have e : profileLoop d bc solve norm tol (k + 1) sol prof
          = profileLoop d bc solve norm tol k (newtonStepPy d bc solve sol)
            { norms := prof.norms ++ [norm (d.resBc bc sol)], steps := prof.steps + 1, converged := prof.converged } := by
        simp only [profileLoop, if_neg hc]
        rfl
      obtain ⟨m, hm, h1, h2, h3⟩ := ih (newtonStepPy d bc solve sol)
        { norms := prof.norms ++ [norm (d.resBc bc sol)], steps := prof.steps + 1, converged := prof.converged } h
      rw [e]
      refine ⟨m + 1, by omega, ?_, by rw [h2]; simp only; omega, ?_⟩
      · rw [h1, List.range_succ_eq_map]
        simp [Function.comp_def]
      · rcases h3 with ⟨a, b, c, e1, e2⟩ | ⟨a, b, c, e2⟩
        · left
          refine ⟨a, by omega, ?_, e1, ?_⟩
          · rw [c, ← Function.iterate_succ_apply]
            congr 1
            omega
          · intro j hj
            cases j with
            | zero => exact not_lt.mp hc
            | succ j => rw [Function.iterate_succ_apply]; exact e2 j (by omega)
        · right
          refine ⟨a, by omega, by rw [c, ← Function.iterate_succ_apply], ?_⟩
          intro j hj
          cases j with
          | zero => exact not_lt.mp hc
          | succ j => rw [Function.iterate_succ_apply]; exact e2 j (by omega)

/-- C136: `profile_solver_py` reports the residual norms of the Newton iterates it visits, one per iteration, at most
`max_iter`. If it says converged, the returned field is the last of them and the first whose residual norm is below the
tolerance; if not, all `max_iter` recorded norms are at or above the tolerance and the field is the iterate after the
last recorded one (its residual is not in the record). -/
theorem C136_newton_record (d : Discretization R α β) (bc : DirichletBC R) (solve : CSRMatrix R → List R → List R)
    (norm : List R → R) (tol : R) (maxIter : ℕ) (guess : List R) :
    let out := profileSolverPy d bc solve norm tol maxIter guess
    let it := fun j => (newtonStepPy d bc solve)^[j] guess
    out.2.norms.length = out.2.steps ∧ out.2.steps ≤ maxIter ∧
    (∀ j < out.2.steps, out.2.norms[j]? = some (norm (d.resBc bc (it j)))) ∧
    (out.2.converged = true → 0 < out.2.steps ∧ out.1 = it (out.2.steps - 1) ∧ norm (d.resBc bc out.1) < tol ∧
      ∀ j < out.2.steps - 1, tol ≤ norm (d.resBc bc (it j))) ∧
    (out.2.converged = false → out.2.steps = maxIter ∧ out.1 = it maxIter ∧
      ∀ j < maxIter, tol ≤ norm (d.resBc bc (it j))) := by
  intro out it
  obtain ⟨m, hm, h1, h2, h3⟩ := profileLoop_spec d bc solve norm tol maxIter guess {} rfl
  have hs : out.2.steps = m := by
    have : out.2.steps = 0 + m := h2
    omega
  have hn : out.2.norms = (List.range m).map fun j => norm (d.resBc bc (it j)) := by
    have : out.2.norms = [] ++ _ := h1
    simpa using this
  refine ⟨by rw [hn, hs]; simp, by omega, ?_, ?_, ?_⟩
  · intro j hj
    rw [hn]
    rw [hs] at hj
    simp [hj]
  · intro hc
    rcases h3 with ⟨_, b, c, e1, e2⟩ | ⟨a, _⟩
    · rw [hs]; exact ⟨b, c, e1, e2⟩
    · exact absurd (hc.symm.trans a) (by simp)
  · intro hc
    rcases h3 with ⟨a, _⟩ | ⟨_, b, c, e2⟩
    · exact absurd (hc.symm.trans a) (by simp)
    · rw [hs]; exact ⟨b, c, e2⟩

end

/-- Sum of absolute values. -/
def exNorm (v : List ℤ) : ℤ := (v.map fun x => |x|).sum

/-- The linear solve of the two-bar example. -/
def exSolvePy : CSRMatrix ℤ → List ℤ → List ℤ := fun A b => exBackend (.csr A) b []

/-- Two iterations solve the (linear) two-bar problem and say so. -/
example : (profileSolverPy (exD .full) exHold exSolvePy exNorm 1 2 [0, 7, 9]).1 = [0, -6, -8] ∧
    (profileSolverPy (exD .full) exHold exSolvePy exNorm 1 2 [0, 7, 9]).2.norms.length = 2 ∧
    (profileSolverPy (exD .full) exHold exSolvePy exNorm 1 2 [0, 7, 9]).2.converged = true := by decide

/-- C136 fails at the last iteration: with `max_iter=1` the same problem is solved exactly, and reported as not
converged. -/
theorem C136_converged_reported_unconverged :
    (profileSolverPy (exD .full) exHold exSolvePy exNorm 1 1 [0, 7, 9]).2.converged = false ∧
    exNorm ((exD .full).resBc exHold (profileSolverPy (exD .full) exHold exSolvePy exNorm 1 1 [0, 7, 9]).1) = 0 := by
  decide

end Verif.Props
