import Verif.Model.BatchedNewton
import Verif.Props.Newton
import Verif.Props.Batched
import Mathlib.Data.List.GetD
import Mathlib.Tactic.FinCases
import Mathlib.Data.Fintype.Basic

/-!
# Solving many parameter sets at once with `jax.vmap` (C141)
-/

namespace Verif.Props
open Verif.Model.Newton

variable {K : Type*} [Field K] [LinearOrder K] [IsStrictOrderedRing K] {V W : Type*} {B : ℕ}

/-- The iterates of lane `b`'s own solve, the last one included. -/
def Visited (E : Fin B → NewtonEnv K V W) (o : NewtonOpts K) (sol0 : Fin B → V) (b : Fin B) (u : V) : Prop :=
  ∃ s, Reach (E b) o (sol0 b) s ∧ s.sol = u

omit [IsStrictOrderedRing K] in
/-- One round of the batched loop does to each lane what its own loop does, or nothing when that one has stopped. -/
theorem maskedBody_lane (E : Fin B → NewtonEnv K V W) (directions : (Fin B → V) → Fin B → V) (o : NewtonOpts K)
    (res00 : Fin B → Option K) (s : Fin B → NState K V)
    (hd : ∀ b, directions (fun b => (s b).sol) b = (E b).direction (s b).sol) (b : Fin B) :
    maskedBody E directions o res00 s b =
      if newtonCond o (res00 b) (s b) then newtonBody (E b) o (s b) else s b := by
  unfold maskedBody batchedBody newtonBody
  simp only [hd]

theorem batchedLoop_lane (E : Fin B → NewtonEnv K V W) (directions : (Fin B → V) → Fin B → V) (o : NewtonOpts K)
    (sol0 : Fin B → V)
    (hd : ∀ u : Fin B → V, (∀ b, Visited E o sol0 b (u b)) → ∀ b, directions u b = (E b).direction (u b))
    (s : Fin B → NState K V) (hs : ∀ b, Reach (E b) o (sol0 b) (s b)) (b : Fin B) :
    batchedLoop E directions o (fun b => (E b).norm ((E b).resf (sol0 b))) s b =
      newtonLoop (E b) o ((E b).norm ((E b).resf (sol0 b))) (s b) := by
  induction hm : ∑ b, (o.maxIter - (s b).it) using Nat.strongRecOn generalizing s with
  | ind m ih =>
    have hlane := maskedBody_lane E directions o (fun b => (E b).norm ((E b).resf (sol0 b))) s
      (hd (fun b => (s b).sol) fun b => ⟨s b, hs b, rfl⟩)
    rw [batchedLoop]
    by_cases h : ∃ b, newtonCond o ((E b).norm ((E b).resf (sol0 b))) (s b) = true
    · rw [dif_pos h]
      rw [ih _ ?_ _ ?_ rfl]
      · rw [hlane b]
        by_cases hb : newtonCond o ((E b).norm ((E b).resf (sol0 b))) (s b) = true
        · rw [if_pos hb]
          conv_rhs => rw [newtonLoop, dif_pos hb]
        · rw [if_neg hb]
      · rw [← hm]
        obtain ⟨c, hc⟩ := h
        refine Finset.sum_lt_sum (fun d _ => ?_) ⟨c, Finset.mem_univ c, ?_⟩
        · rw [hlane d]
          split
          · simp only [newtonBody]; omega
          · exact le_refl _
        · rw [hlane c, if_pos hc]
          simp only [newtonCond, Bool.and_eq_true, decide_eq_true_eq] at hc
          simp only [newtonBody]
          omega
      · intro c
        rw [hlane c]
        split
        · exact Reach.step _ (hs c) (by assumption)
        · exact hs c
    · rw [dif_neg h, newtonLoop, dif_neg fun hb => h ⟨b, hb⟩]

/-- C141 (partial): whenever the batched linear solve gives each lane the direction of its own system, for iterates of the
lanes' own solves, every lane of a mapped solve returns exactly what the lane's own solve returns: however many lanes there
are, whichever iteration each of them stops at and for whatever reason. Missing: the assumption fails for the SciPy backend
as soon as one lane's tangent is singular (`C141_singular_lane_spoils_batch`). -/
theorem C141_lanes_independent_partial (E : Fin B → NewtonEnv K V W) (directions : (Fin B → V) → Fin B → V)
    (o : NewtonOpts K) (sol0 : Fin B → V)
    (hd : ∀ u : Fin B → V, (∀ b, Visited E o sol0 b (u b)) → ∀ b, directions u b = (E b).direction (u b)) (b : Fin B)
    (raiseOnFail : Bool) :
    newtonForward (E b) o raiseOnFail false (sol0 b) = .ok (batchedForward E directions o sol0 b) := by
  unfold newtonForward batchedForward newtonFinal
  simp only [Bool.and_false, Bool.false_and, Bool.false_eq_true, if_false]
  rw [batchedLoop_lane E directions o sol0 hd _ (fun b => Reach.init) b]

/-- A lane with one unknown: residual `f`, tangent `j`, solved alone by SciPy. -/
def scalarLane (f j : K → K) : NewtonEnv K (Option K) (Option K) where
  resf u := u.map f
  norm w := w.map fun x => |x|
  selfDot w := w.map fun x => x * x
  hasNaN w := w.isNone
  axpy u a d := fop (· + ·) u (fop (· * ·) (some a) d)
  direction u := stackedScalarSolve (B := 1) (fun _ => u.map j) (fun _ => u.map fun x => -f x) 0

/-- The directions of a mapped solve of such lanes with SciPy: one stacked system. -/
def scalarDirections (f j : Fin B → K → K) (u : Fin B → Option K) : Fin B → Option K :=
  stackedScalarSolve (fun b => (u b).map (j b)) fun b => (u b).map fun x => -f b x

/-- C141 for lanes with one unknown and SciPy: when no tangent vanishes on the way, each lane returns what it returns
alone. -/
theorem C141_scipy_lanes (f j : Fin B → K → K) (o : NewtonOpts K) (sol0 : Fin B → Option K)
    (hreg : ∀ b u, Visited (fun b => scalarLane (f b) (j b)) o sol0 b u → u.map (j b) ≠ some 0) (b : Fin B)
    (raiseOnFail : Bool) :
    newtonForward (scalarLane (f b) (j b)) o raiseOnFail false (sol0 b) =
      .ok (batchedForward (fun b => scalarLane (f b) (j b)) (scalarDirections f j) o sol0 b) := by
  refine C141_lanes_independent_partial (fun b => scalarLane (f b) (j b)) _ o sol0 ?_ b raiseOnFail
  intro u hu c
  unfold scalarDirections scalarLane stackedScalarSolve
  simp only
  rw [if_neg, if_neg]
  · rintro ⟨_, h⟩
    exact hreg c _ (hu c) h
  · rintro ⟨d, h⟩
    exact hreg d _ (hu d) h

/-- C141: what SciPy gives a lane of regular tangent, among regular tangents, solves the lane's own system. -/
theorem C141_scipy_solves (f j : Fin B → K → K) (u : Fin B → K) (hreg : ∀ b, j b (u b) ≠ 0) (b : Fin B) :
    ∃ d, scalarDirections f j (fun b => some (u b)) b = some d ∧ j b (u b) * d = -f b (u b) := by
  unfold scalarDirections stackedScalarSolve
  rw [if_neg]
  · refine ⟨-f b (u b) / j b (u b), rfl, ?_⟩
    field_simp [hreg b]
  · rintro ⟨d, h⟩
    exact hreg d (by simpa using h)

/-- C141 for the direct backends and systems of any size: lane `b` alone gets a direction that solves its own system; mapped, all
lanes are stacked into one system (CHOLMOD, SciPy, UMFPACK) solved by a backend whose answers solve what it is given. When the
backend answers and the lanes' tangents are regular at the iterates of their own solves, every lane returns exactly what its own
solve returns. -/
theorem C141_direct_lanes (E : Fin B → NewtonEnv K (List K) W) (o : NewtonOpts K) (sol0 : Fin B → List K) (n : ℕ)
    (offsets columns : List ℕ) (hv : ValidPattern n offsets columns) (vals rhs : Fin B → List K → List K)
    (solve : Verif.Model.CSRMatrix K → List K → Except Verif.Model.PyErr (List K)) (hs : SoundBackend solve false)
    (batched : List (List K) → Verif.Model.BatchValues K → List ℕ → List ℕ → Except Verif.Model.PyErr (List (List K)))
    (hb : batched = Verif.Model.cholmodBatched solve n ∨ batched = Verif.Model.umfpackBatched solve n)
    (hrhs : ∀ b u, Visited E o sol0 b u → (rhs b u).length = n)
    (hsingle : ∀ b u, Visited E o sol0 b u → ((E b).direction u).length = n ∧
      SolvesDense (Verif.Model.buildCsr (vals b u) columns offsets n).todense false n ((E b).direction u) (rhs b u))
    (hans : ∀ u : Fin B → List K, (∀ b, Visited E o sol0 b (u b)) → ∃ X, Verif.Model.vmapSolve batched B
      (.each (List.ofFn fun c => rhs c (u c))) (.each (List.ofFn fun c => vals c (u c))) (.same offsets) (.same columns) = .ok X)
    (hreg : ∀ b u, Visited E o sol0 b u → ∀ x y : List K, x.length = n → y.length = n →
      SolvesDense (Verif.Model.buildCsr (vals b u) columns offsets n).todense false n x (rhs b u) →
      SolvesDense (Verif.Model.buildCsr (vals b u) columns offsets n).todense false n y (rhs b u) → x = y)
    (b : Fin B) (raiseOnFail : Bool) :
    newtonForward (E b) o raiseOnFail false (sol0 b) =
      .ok (batchedForward E (directDirections batched offsets columns vals rhs) o sol0 b) := by
  refine C141_lanes_independent_partial E _ o sol0 (fun u hu c => ?_) b raiseOnFail
  obtain ⟨X, hX⟩ := hans u hu
  have hall : AllSolved n (List.ofFn fun c => rhs c (u c)) (BatchValues.sys (.each (List.ofFn fun c => vals c (u c))))
      (fun _ => offsets) (fun _ => columns) false X := by
    have hlen : ∀ r ∈ List.ofFn (fun c => rhs c (u c)), r.length = n := by
      intro r hr
      obtain ⟨d, rfl⟩ := List.mem_ofFn.mp hr
      exact hrhs d _ (hu d)
    have hX' : batched (List.ofFn fun c => rhs c (u c)) (.each (List.ofFn fun c => vals c (u c))) offsets columns = .ok X := hX
    rcases hb with rfl | rfl
    · exact C39_cholmod_batched solve false hs n offsets columns hv _ hlen _ X hX'
    · exact C39_umfpack_batched solve false hs n offsets columns hv _ hlen _ X hX'
  obtain ⟨_, h2⟩ := hall
  have h3 := h2 c (by rw [List.length_ofFn]; exact c.2)
  have e1 : (List.ofFn fun c => rhs c (u c)).getD c [] = rhs c (u c) := by
    rw [List.getD_eq_getElem _ _ (by rw [List.length_ofFn]; exact c.2), List.getElem_ofFn]
  have e2 : BatchValues.sys (.each (List.ofFn fun c => vals c (u c))) (c : ℕ) = vals c (u c) := by
    unfold BatchValues.sys
    simp only
    rw [List.getD_eq_getElem _ _ (by rw [List.length_ofFn]; exact c.2), List.getElem_ofFn]
  rw [e1, e2] at h3
  unfold directDirections
  rw [hX]
  exact hreg c (u c) (hu c) _ _ h3.1 (hsingle c _ (hu c)).1 h3.2 (hsingle c _ (hu c)).2

/-- Tangents of two lanes with two unknowns. -/
def twoVals : Fin 2 → List ℚ → List ℚ := fun b _ => ![[2, 3], [4, 5]] b

/-- Lane `b` with residual `D u - (1, 1)`, `D` diagonal; NaN norms do not occur. -/
def twoLane (b : Fin 2) : NewtonEnv ℚ (List ℚ) (List ℚ) where
  resf u := [(twoVals b u).getD 0 0 * u.getD 0 0 - 1, (twoVals b u).getD 1 0 * u.getD 1 0 - 1]
  norm w := some (max |w.getD 0 0| |w.getD 1 0|)
  selfDot w := some (w.getD 0 0 ^ 2 + w.getD 1 0 ^ 2)
  hasNaN _ := false
  axpy u a d := [u.getD 0 0 + a * d.getD 0 0, u.getD 1 0 + a * d.getD 1 0]
  direction u := [(1 - (twoVals b u).getD 0 0 * u.getD 0 0) / (twoVals b u).getD 0 0,
    (1 - (twoVals b u).getD 1 0 * u.getD 1 0) / (twoVals b u).getD 1 0]

/-- Right-hand sides of the lanes. -/
def twoRhs : Fin 2 → List ℚ → List ℚ := fun b u => ((twoLane b).resf u).map fun x => -x

theorem two_pattern : ValidPattern 2 [0, 1, 2] [0, 1] := by
  refine ⟨rfl, rfl, ?_, by decide, by decide⟩
  intro r hr
  interval_cases r <;> decide

theorem two_dense (b : Fin 2) (u x : List ℚ) (w : List ℚ) :
    SolvesDense (Verif.Model.buildCsr (twoVals b u) [0, 1] [0, 1, 2] 2).todense false 2 x w ↔
      (twoVals b u).getD 0 0 * x.getD 0 0 = w.getD 0 0 ∧ (twoVals b u).getD 1 0 * x.getD 1 0 = w.getD 1 0 := by
  have hd : ∀ i < 2, ∀ j < 2, (Verif.Model.buildCsr (twoVals b u) [0, 1] [0, 1, 2] 2).todense i j =
      if i = j then (twoVals b u).getD i 0 else 0 := by
    intro i hi j hj
    rw [show twoVals b u = twoVals b [] from rfl]
    clear u x w
    rcases (by clear * -; revert b; decide : b = 0 ∨ b = 1) with rfl | rfl <;> interval_cases i <;> interval_cases j <;> decide +kernel
  unfold SolvesDense
  constructor
  · intro h
    have h0 := h 0 (by norm_num)
    have h1 := h 1 (by norm_num)
    simp only [Finset.sum_range_succ, Finset.sum_range_zero, hd 0 (by norm_num) 0 (by norm_num), hd 0 (by norm_num) 1 (by norm_num),
      hd 1 (by norm_num) 0 (by norm_num), hd 1 (by norm_num) 1 (by norm_num)] at h0 h1
    simpa using And.intro h0 h1
  · rintro ⟨h0, h1⟩ i hi
    interval_cases i
    · simp only [Finset.sum_range_succ, Finset.sum_range_zero, hd 0 (by norm_num) 0 (by norm_num), hd 0 (by norm_num) 1 (by norm_num)]
      simpa using h0
    · simp only [Finset.sum_range_succ, Finset.sum_range_zero, hd 1 (by norm_num) 0 (by norm_num), hd 1 (by norm_num) 1 (by norm_num)]
      simpa using h1

theorem two_nonzero (b : Fin 2) (u : List ℚ) : (twoVals b u).getD 0 0 ≠ 0 ∧ (twoVals b u).getD 1 0 ≠ 0 := by
  rcases (by clear * -; revert b; decide : b = 0 ∨ b = 1) with rfl | rfl <;> simp [twoVals]

theorem two_single (b : Fin 2) (u : List ℚ) :
    SolvesDense (Verif.Model.buildCsr (twoVals b u) [0, 1] [0, 1, 2] 2).todense false 2 ((twoLane b).direction u) (twoRhs b u) := by
  rw [two_dense]
  obtain ⟨h0, h1⟩ := two_nonzero b u
  simp only [twoLane, twoRhs, List.map_cons, List.map_nil, List.getD_cons_zero, List.getD_cons_succ]
  constructor <;> field_simp <;> ring

/-- Two linear lanes with two unknowns each, solved by an exact backend through CHOLMOD's batched call. -/
example (o : NewtonOpts ℚ) (sol0 : Fin 2 → List ℚ) (b : Fin 2) (r : Bool) :
    newtonForward (twoLane b) o r false (sol0 b) = .ok (batchedForward twoLane
      (directDirections (Verif.Model.cholmodBatched (exactBackend false) 2) [0, 1, 2] [0, 1] twoVals twoRhs) o sol0 b) := by
  refine C141_direct_lanes twoLane o sol0 2 [0, 1, 2] [0, 1] two_pattern twoVals twoRhs (exactBackend false) (exactBackend_sound false) _
    (Or.inl rfl) (fun _ _ _ => rfl) (fun b u _ => ⟨rfl, two_single b u⟩) ?_ ?_ b r
  · intro u _
    obtain ⟨A, hA, hiff⟩ := C39_stacked_solve_iff (K := ℚ) 2 [0, 1, 2] [0, 1] two_pattern (List.ofFn fun c => twoVals c (u c)) (by
        intro d hd
        obtain ⟨c, rfl⟩ := List.mem_ofFn.mp hd
        rcases (by clear * -; revert c; decide : c = 0 ∨ c = 1) with rfl | rfl <;> simp [twoVals]) false
      (List.ofFn fun c => (twoLane c).direction (u c)) (List.ofFn fun c => twoRhs c (u c)) (by simp) (by simp)
      (by intro d hd; obtain ⟨c, rfl⟩ := List.mem_ofFn.mp hd; rfl) (by intro d hd; obtain ⟨c, rfl⟩ := List.mem_ofFn.mp hd; rfl)
    have hsol := hiff.2 (by
      intro c hc
      rw [List.length_ofFn] at hc
      interval_cases c
      · exact two_single 0 (u 0)
      · exact two_single 1 (u 1))
    have hans : ∃ x, exactBackend false A (List.ofFn fun c => twoRhs c (u c)).flatten = .ok x := by
      unfold exactBackend
      rw [dif_pos]
      · exact ⟨_, rfl⟩
      · exact ⟨(List.ofFn fun c => (twoLane c).direction (u c)).flatten, rfl, hsol⟩
    obtain ⟨x, hx⟩ := hans
    refine ⟨Verif.Model.reshapeRows 2 2 x, ?_⟩
    have hpay : Verif.Model.payloadOk 2 (List.ofFn fun c => twoRhs c (u c)) (.each (List.ofFn fun c => twoVals c (u c))) [0, 1, 2] [0, 1] = true := by
      simp [Verif.Model.payloadOk, twoVals]
    simp only [Verif.Model.vmapSolve, Verif.Model.Mapped.first, Verif.Model.cholmodBatched]
    refine (if_pos hpay).trans ?_
    refine (congrArg (fun r => Except.bind r _) hA).trans ?_
    exact congrArg (fun r => Except.bind r fun x => .ok (Verif.Model.reshapeRows 2 2 x)) hx
  · intro b u _ x y hx hy h1 h2
    rw [two_dense] at h1 h2
    obtain ⟨k0, k1⟩ := two_nonzero b u
    match x, y, hx, hy with
    | [x0, x1], [y0, y1], _, _ =>
      simp only [List.getD_cons_zero, List.getD_cons_succ] at h1 h2
      rw [mul_left_cancel₀ k0 (h1.1.trans h2.1.symm), mul_left_cancel₀ k1 (h1.2.trans h2.2.symm)]

deriving instance DecidableEq for NState

/-- Two linear lanes that both converge in one step; the lanes have different solutions. -/
def goodRes : Fin 2 → ℚ → ℚ := ![fun x => 2 * x - 2, fun x => 4 * x - 12]
def goodTan : Fin 2 → ℚ → ℚ := ![fun _ => 2, fun _ => 4]

example (b : Fin 2) := C141_scipy_lanes goodRes goodTan exO (fun _ => some 0) (by
  intro b u _
  rcases (by clear * -; revert b; decide : b = 0 ∨ b = 1) with rfl | rfl <;> cases u <;>
    simp [goodTan]) b true

/-- The regular lane `2 x - 2 = 0` beside the lane `-1 = 0`, whose tangent is 0. -/
def badRes : Fin 2 → ℚ → ℚ := ![fun x => 2 * x - 2, fun _ => -1]
def badTan : Fin 2 → ℚ → ℚ := ![fun _ => 2, fun _ => 0]

/-- One full step solves the regular lane. -/
theorem good_lane_step :
    newtonBody (scalarLane (badRes 0) (badTan 0)) exO ⟨some 0, some 2, 0, true⟩ = ⟨some 1, some 0, 1, true⟩ := by
  decide +kernel

/-- In the batch, both lanes get NaN. -/
theorem bad_batch_step :
    batchedBody (fun b => scalarLane (badRes b) (badTan b)) (scalarDirections badRes badTan) exO
      ![⟨some 0, some 2, 0, true⟩, ⟨some 0, some 1, 0, true⟩] = fun _ => ⟨none, none, 1, false⟩ := by
  funext b
  rcases (by clear * -; revert b; decide : b = 0 ∨ b = 1) with rfl | rfl <;> decide +kernel

/-- C141 fails for SciPy when one lane is singular: solved alone, the regular lane returns its solution; mapped together with
a lane whose tangent is singular it returns NaN. -/
theorem C141_singular_lane_spoils_batch :
    newtonForward (scalarLane (badRes 0) (badTan 0)) exO true true (some 0) = .ok (some 1) ∧
      batchedForward (fun b => scalarLane (badRes b) (badTan b)) (scalarDirections badRes badTan) exO (fun _ => some 0) 0 =
        none := by
  constructor
  · have hc : newtonCond exO (some 2) (⟨some 0, some 2, 0, true⟩ : NState ℚ (Option ℚ)) = true := by decide +kernel
    have hn : ¬ newtonCond exO (some 2) (⟨some 1, some 0, 1, true⟩ : NState ℚ (Option ℚ)) = true := by decide +kernel
    have h0 : (scalarLane (badRes 0) (badTan 0)).norm ((scalarLane (badRes 0) (badTan 0)).resf (some 0)) = some 2 := by
      decide +kernel
    have hl : newtonFinal (scalarLane (badRes 0) (badTan 0)) exO (some 0) = ⟨some 1, some 0, 1, true⟩ := by
      unfold newtonFinal
      rw [h0, newtonLoop, dif_pos hc, good_lane_step, newtonLoop, dif_neg hn]
    unfold newtonForward
    rw [hl]
    rfl
  · have h0 : (fun b => (scalarLane (badRes b) (badTan b)).norm ((scalarLane (badRes b) (badTan b)).resf (some 0)))
        = ![some 2, some 1] := by
      funext b
      rcases (by clear * -; revert b; decide : b = 0 ∨ b = 1) with rfl | rfl <;> decide +kernel
    have hs : (fun b => (⟨some 0, (scalarLane (badRes b) (badTan b)).norm
          ((scalarLane (badRes b) (badTan b)).resf (some 0)), 0, true⟩ : NState ℚ (Option ℚ)))
        = ![⟨some 0, some 2, 0, true⟩, ⟨some 0, some 1, 0, true⟩] := by
      funext b
      rcases (by clear * -; revert b; decide : b = 0 ∨ b = 1) with rfl | rfl <;> decide +kernel
    have hstep : maskedBody (fun b => scalarLane (badRes b) (badTan b)) (scalarDirections badRes badTan) exO
        ![some 2, some 1] ![⟨some 0, some 2, 0, true⟩, ⟨some 0, some 1, 0, true⟩] = fun _ => ⟨none, none, 1, false⟩ := by
      unfold maskedBody
      rw [bad_batch_step]
      funext b
      rcases (by clear * -; revert b; decide : b = 0 ∨ b = 1) with rfl | rfl <;> decide +kernel
    have hc : ∃ b : Fin 2, newtonCond exO ((![some 2, some 1] : Fin 2 → Option ℚ) b)
        ((![⟨some 0, some 2, 0, true⟩, ⟨some 0, some 1, 0, true⟩] : Fin 2 → NState ℚ (Option ℚ)) b) = true :=
      ⟨0, by decide +kernel⟩
    have hn : ¬ ∃ b : Fin 2, newtonCond exO ((![some 2, some 1] : Fin 2 → Option ℚ) b)
        (⟨none, none, 1, false⟩ : NState ℚ (Option ℚ)) = true := by
      rintro ⟨b, h⟩
      simp [newtonCond, flt] at h
    unfold batchedForward
    rw [hs, h0, batchedLoop, dif_pos hc, hstep, batchedLoop, dif_neg hn]

end Verif.Props
