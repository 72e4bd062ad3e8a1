import Verif.Model.Lifecycle
import Verif.Props.Assembly

/-!
# C47: lifecycle of the assembly scratch
-/

namespace Verif.Props
open Verif.Model

/-- Whether a history has released the maps that assembly without a `TracedStructure` needs: by an explicit request or by
building a `TracedStructure` with the default `free_scratch=True`. -/
def released : List LifeOp → Bool
  | [] => false
  | .free true :: _ => true
  | .build true :: _ => true
  | _ :: os => released os

section
variable {R : Type*} [AddCommMonoid R] {α β : Type*}

theorem jacFrom_eq (p : Problem) (batch : ℕ) (a : AsmArgs R α β) :
    jacFrom p (slotSort p.volSlots (p.ndof * p.ndof) p.maps.nse batch) a.kv a.kf a.zv a.zf a.cells a.faces a.surfaceJacZero
      batch = getJacobian p a.kv a.kf a.zv a.zf a.cells a.faces a.surfaceJacZero batch := rfl

theorem resJFrom_eq (p : Problem) (batch : ℕ) (a : AsmArgs R α β) :
    resJFrom p (slotSort p.volSlots (p.ndof * p.ndof) p.maps.nse batch)
      (slotSort (reshapeRows p.numCells p.ndof (p.resDofs.take (p.numCells * p.ndof))) p.ndof p.n batch)
      a.kv a.kf a.zv a.zf a.cells a.faces batch = getResJ p a.kv a.kf a.zv a.zf a.cells a.faces batch := rfl
end

/-- Invariant: the maps are all there, or all gone; caches hold what a fresh computation would. -/
def LifeOk (p : Problem) (batch : ℕ) (gone : Bool) (s : ProbState) : Prop :=
  if gone then s.volSlots = none ∧ s.resVolDofs = none ∧ s.volCache = none ∧ s.resCache = none
  else s.volSlots = some p.volSlots ∧
    s.resVolDofs = some (reshapeRows p.numCells p.ndof (p.resDofs.take (p.numCells * p.ndof))) ∧
    (s.volCache = none ∨ s.volCache = some (slotSort p.volSlots (p.ndof * p.ndof) p.maps.nse batch)) ∧
    (s.resCache = none ∨ s.resCache
      = some (slotSort (reshapeRows p.numCells p.ndof (p.resDofs.take (p.numCells * p.ndof))) p.ndof p.n batch))

/-- The sorts a fresh problem has. -/
def freshSorts (p : Problem) (batch : ℕ) : TracedSorts :=
  ⟨slotSort p.volSlots (p.ndof * p.ndof) p.maps.nse batch,
    slotSort (reshapeRows p.numCells p.ndof (p.resDofs.take (p.numCells * p.ndof))) p.ndof p.n batch⟩

variable (p : Problem) (batch : ℕ)

theorem volSort_gone {s : ProbState} (h : LifeOk p batch true s) : s.volSort p batch = (s, .error .runtimeError) := by
  unfold LifeOk at h
  rw [if_pos rfl] at h
  obtain ⟨h1, -, h3, -⟩ := h
  unfold ProbState.volSort
  rw [h3, h1]

theorem volSort_live {s : ProbState} (h : LifeOk p batch false s) :
    ∃ s', s.volSort p batch = (s', .ok (freshSorts p batch).vol) ∧ LifeOk p batch false s' := by
  have h0 := h
  unfold LifeOk at h0
  rw [if_neg (by simp)] at h0
  obtain ⟨h1, h2, h3, h4⟩ := h0
  unfold ProbState.volSort
  rcases h3 with h3 | h3
  · rw [h3, h1]
    refine ⟨_, rfl, ?_⟩
    unfold LifeOk
    rw [if_neg (by simp)]
    exact ⟨rfl, h2, Or.inr rfl, h4⟩
  · rw [h3]
    exact ⟨s, rfl, h⟩

theorem resSort_live {s : ProbState} (h : LifeOk p batch false s) :
    ∃ s', s.resSort p batch = (s', .ok (freshSorts p batch).res) ∧ LifeOk p batch false s' := by
  have h0 := h
  unfold LifeOk at h0
  rw [if_neg (by simp)] at h0
  obtain ⟨h1, h2, h3, h4⟩ := h0
  unfold ProbState.resSort
  rcases h4 with h4 | h4
  · rw [h4, h2]
    refine ⟨_, rfl, ?_⟩
    unfold LifeOk
    rw [if_neg (by simp)]
    exact ⟨h1, rfl, h3, Or.inr rfl⟩
  · rw [h4]
    exact ⟨s, rfl, h⟩

theorem free_true_gone (s : ProbState) : LifeOk p batch true (s.free true) := by
  unfold LifeOk ProbState.free
  simp

theorem free_false_ok {g : Bool} {s : ProbState} (h : LifeOk p batch g s) : LifeOk p batch g (s.free false) := by
  cases g <;> simpa [LifeOk, ProbState.free] using h

/-- One operation: what it does to the invariant, and the structures it builds. -/
theorem step_ok {g : Bool} {s : ProbState} (h : LifeOk p batch g s) (o : LifeOp) :
    LifeOk p batch (g || released [o]) (s.step p batch o).1 ∧ ∀ t ∈ (s.step p batch o).2, t = freshSorts p batch := by
  cases g with
  | true =>
    rw [Bool.true_or]
    cases o with
    | free d =>
      cases d with
      | true => exact ⟨free_true_gone p batch s, by simp [ProbState.step]⟩
      | false => exact ⟨free_false_ok p batch h, by simp [ProbState.step]⟩
    | build f =>
      have e : s.fromProblem p batch f = (s, .error .runtimeError) := by
        unfold ProbState.fromProblem
        rw [volSort_gone p batch h]
      simp only [ProbState.step, e]
      exact ⟨h, by simp [Except.toOption]⟩
    | assembleJ =>
      simp only [ProbState.step, volSort_gone p batch h]
      exact ⟨h, by simp⟩
    | assembleRJ =>
      simp only [ProbState.step, volSort_gone p batch h]
      exact ⟨h, by simp⟩
  | false =>
    rw [Bool.false_or]
    obtain ⟨s1, e1, h1⟩ := volSort_live p batch h
    obtain ⟨s2, e2, h2⟩ := resSort_live p batch h1
    cases o with
    | free d =>
      cases d with
      | true => exact ⟨free_true_gone p batch s, by simp [ProbState.step]⟩
      | false => exact ⟨free_false_ok p batch h, by simp [ProbState.step]⟩
    | build f =>
      have e : s.fromProblem p batch f = (if f then s2.free true else s2, .ok (freshSorts p batch)) := by
        unfold ProbState.fromProblem
        rw [e1]
        simp only
        rw [e2]
      simp only [ProbState.step, e]
      refine ⟨?_, by simp [Except.toOption]⟩
      cases f with
      | true => exact free_true_gone p batch s2
      | false => exact h2
    | assembleJ =>
      simp only [ProbState.step, e1]
      exact ⟨h1, by simp⟩
    | assembleRJ =>
      simp only [ProbState.step, e1, e2]
      exact ⟨h2, by simp⟩

theorem released_cons (o : LifeOp) (os : List LifeOp) : released (o :: os) = (released [o] || released os) := by
  cases o with
  | free d => cases d <;> rfl
  | build f => cases f <;> rfl
  | assembleJ => rfl
  | assembleRJ => rfl

theorem run_ok {g : Bool} {s : ProbState} (h : LifeOk p batch g s) (os : List LifeOp) :
    LifeOk p batch (g || released os) (s.run p batch os).1 ∧ ∀ t ∈ (s.run p batch os).2, t = freshSorts p batch := by
  induction os generalizing g s with
  | nil => simpa [ProbState.run, released] using h
  | cons o os ih =>
    obtain ⟨h1, h2⟩ := step_ok p batch h o
    obtain ⟨h3, h4⟩ := ih h1
    unfold ProbState.run
    refine ⟨?_, ?_⟩
    · rw [released_cons, ← Bool.or_assoc]
      exact h3
    · intro t ht
      rcases List.mem_append.1 ht with ht | ht
      · exact h2 t (by simpa using ht)
      · exact h4 t ht

theorem fresh_ok : LifeOk p batch false (ProbState.fresh p) := by
  unfold LifeOk ProbState.fresh
  simp

section
variable {R : Type*} [AddCommMonoid R] {α β : Type*}

/-- **C47.** Whatever was built, released and assembled before: every `TracedStructure` obtained on the way assembles, at
any later time and for any kernels and inputs, the matrix and the residual a fresh problem would. -/
theorem C47_traced_structure_unaffected (os : List LifeOp) (t : TracedSorts)
    (ht : t ∈ ((ProbState.fresh p).run p batch os).2) (a : AsmArgs R α β) :
    t.jacobian p batch a = getJacobian p a.kv a.kf a.zv a.zf a.cells a.faces a.surfaceJacZero batch ∧
      t.residualJacobian p batch a = getResJ p a.kv a.kf a.zv a.zf a.cells a.faces batch := by
  rw [(run_ok p batch (fresh_ok p batch) os).2 t ht]
  exact ⟨jacFrom_eq p batch a, resJFrom_eq p batch a⟩

/-- **C47.** Assembly without a `TracedStructure` after any history: the fresh problem's result as long as the maps have
not been released, and an explicit `RuntimeError` ever after; never another matrix. -/
theorem C47_plain_assembly (os : List LifeOp) (a : AsmArgs R α β) :
    let s := ((ProbState.fresh p).run p batch os).1
    (s.jacobian p batch a).2 = (if released os then .error .runtimeError
      else .ok (getJacobian p a.kv a.kf a.zv a.zf a.cells a.faces a.surfaceJacZero batch)) ∧
    (s.residualJacobian p batch a).2 = (if released os then .error .runtimeError
      else .ok (getResJ p a.kv a.kf a.zv a.zf a.cells a.faces batch)) := by
  intro s
  have h := (run_ok p batch (fresh_ok p batch) os).1
  rw [Bool.false_or] at h
  change LifeOk p batch (released os) s at h
  cases hr : released os with
  | true =>
    rw [hr] at h
    unfold ProbState.jacobian ProbState.residualJacobian
    rw [volSort_gone p batch h]
    exact ⟨rfl, rfl⟩
  | false =>
    rw [hr] at h
    obtain ⟨s1, e1, h1⟩ := volSort_live p batch h
    obtain ⟨s2, e2, h2⟩ := resSort_live p batch h1
    unfold ProbState.jacobian ProbState.residualJacobian
    rw [e1]
    simp only
    rw [e2]
    exact ⟨congrArg Except.ok (jacFrom_eq p batch a), congrArg Except.ok (resJFrom_eq p batch a)⟩

end

/-- **C47.** Releasing twice is releasing once (with the stronger of the two requests), in any order. -/
theorem C47_free_idempotent (s : ProbState) (d d' : Bool) : (s.free d).free d' = s.free (d || d') := by
  cases d <;> cases d' <;> rfl

/-- **C47.** A further `TracedStructure` can be built exactly as long as the maps have not been released. -/
theorem C47_rebuild (os : List LifeOp) (f : Bool) :
    ((((ProbState.fresh p).run p batch os).1.fromProblem p batch f).2 = .error .runtimeError ↔ released os = true) := by
  have h := (run_ok p batch (fresh_ok p batch) os).1
  rw [Bool.false_or] at h
  generalize ((ProbState.fresh p).run p batch os).1 = s at h
  cases hr : released os with
  | true =>
    rw [hr] at h
    unfold ProbState.fromProblem
    rw [volSort_gone p batch h]
    simp
  | false =>
    rw [hr] at h
    obtain ⟨s1, e1, h1⟩ := volSort_live p batch h
    obtain ⟨s2, e2, h2⟩ := resSort_live p batch h1
    unfold ProbState.fromProblem
    rw [e1]
    simp only
    rw [e2]
    simp

/-- A history that builds a structure, then releases, and one that keeps the maps. -/
example : released [.assembleJ, .build false, .free false, .assembleRJ] = false ∧
    released [.assembleJ, .build true, .assembleJ] = true ∧
    ((ProbState.fresh exP).run exP 1 [.build false, .free true]).2.length = 1 := by decide +kernel

end Verif.Props
