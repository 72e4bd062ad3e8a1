import Verif.Model.Mdmm
import Mathlib.Analysis.Calculus.Deriv.Add
import Mathlib.Analysis.Calculus.Deriv.Mul
import Mathlib.Analysis.Calculus.Deriv.Pow
import Mathlib.Analysis.Real.Sqrt
import Mathlib.Algebra.BigOperators.Ring.List
import Mathlib.Algebra.Order.BigOperators.Group.List
import Mathlib.Tactic.Linarith
import Mathlib.Tactic.Ring
import Mathlib.Tactic.Positivity

/-!
# C62: the modified differential multiplier method
-/

namespace Verif.Props
open Verif.Model

/-- Specification: the arrays of a tree in order, with the mark. -/
def leavesOf {F : Type*} : MTree F → List (Bool × List F)
  | .leaf v => [(false, v)]
  | .multiplier v => [(true, v)]
  | .empty => []
  | .pair a b => leavesOf a ++ leavesOf b

/-- **C62.** Preparing an update turns round exactly the multipliers. -/
theorem C62_prepare_update {F : Type*} [Neg F] (t : MTree F) :
    leavesOf (prepareUpdate t) = (leavesOf t).map fun p => if p.1 then (true, p.2.map fun y => -y) else p := by
  induction t with
  | leaf v => rfl
  | multiplier v => rfl
  | empty => rfl
  | pair a b iha ihb => simp [prepareUpdate, leavesOf, iha, ihb]

/-- **C62.** In particular, of a gradient descent update `-lr * g` every multiplier gets `+lr * g` and everything else `-lr * g`. -/
theorem C62_ascends_and_descends {F : Type*} [Ring F] (lr : F) (t : MTree F) (k : ℕ) (b : Bool) (g : List F)
    (h : (leavesOf t)[k]? = some (b, g.map fun y => -(lr * y))) :
    (leavesOf (prepareUpdate t))[k]? = some (b, g.map fun y => if b then lr * y else -(lr * y)) := by
  rw [C62_prepare_update, List.getElem?_map, h]
  cases b <;> simp

/-- The tree of one inequality constraint and one design variable. -/
example : leavesOf (prepareUpdate (.pair (.leaf [(1 : ℤ), 2]) (.pair (.multiplier [3]) (.leaf [4])))) =
    [(false, [1, 2]), (true, [-3]), (false, [4])] := by decide

section
variable {F : Type*} [Field F] [LinearOrder F] [IsStrictOrderedRing F]

theorem loss_shift (damping weight t : F) : ∀ (lam inf : List F), lam.length = inf.length →
    multiplierLoss damping weight (List.zipWith (fun l g => l + t * g) lam inf) inf
      = multiplierLoss damping weight lam inf + t * weight * (inf.map fun g => g ^ 2).sum := by
  intro lam
  induction lam with
  | nil =>
    intro inf h
    have : inf = [] := List.length_eq_zero_iff.1 h.symm
    subst this
    simp [multiplierLoss]
  | cons l lam ih =>
    intro inf h
    cases inf with
    | nil => simp at h
    | cons g inf =>
      have := ih inf (by simpa using h)
      unfold multiplierLoss at this ⊢
      simp only [List.zipWith_cons_cons, List.sum_cons, List.map_cons]
      have h2 : ∀ A B S, weight * A = weight * B + t * weight * S →
          weight * ((l + t * g) * g + damping * g ^ 2 / 2 + A)
            = weight * (l * g + damping * g ^ 2 / 2 + B) + t * weight * (g ^ 2 + S) := by
        intro A B S hA
        linear_combination hA
      exact h2 _ _ _ this

/-- **C62.** A step of the multipliers along the infeasibility scaled by the weight — the gradient of the loss in the multipliers —
never lowers the loss, for any constraint values, and raises it strictly while the constraint is violated. -/
theorem C62_multiplier_step_raises_loss (damping weight lr : F) (hlr : 0 ≤ lr) (lam inf : List F)
    (hl : lam.length = inf.length) :
    let lam' := List.zipWith (fun l g => l + lr * weight * g) lam inf
    multiplierLoss damping weight lam inf ≤ multiplierLoss damping weight lam' inf ∧
      (0 < lr → weight ≠ 0 → (∃ g ∈ inf, g ≠ 0) →
        multiplierLoss damping weight lam inf < multiplierLoss damping weight lam' inf) := by
  intro lam'
  have h := loss_shift damping weight (lr * weight) lam inf hl
  have hs : 0 ≤ (inf.map fun g => g ^ 2).sum := List.sum_nonneg (by
    intro y hy
    obtain ⟨g, -, rfl⟩ := List.mem_map.1 hy
    positivity)
  have e : lr * weight * weight * (inf.map fun g => g ^ 2).sum = lr * weight ^ 2 * (inf.map fun g => g ^ 2).sum := by ring
  constructor
  · rw [h, e]
    have : 0 ≤ lr * weight ^ 2 * (inf.map fun g => g ^ 2).sum := by positivity
    linarith
  · rintro h1 h2 ⟨g, hg, hg0⟩
    rw [h, e]
    have hp : 0 < (inf.map fun g => g ^ 2).sum := by
      have h3 : g ^ 2 ≤ (inf.map fun g => g ^ 2).sum := List.single_le_sum (by
        intro y hy
        obtain ⟨g, -, rfl⟩ := List.mem_map.1 hy
        positivity) _ (List.mem_map_of_mem hg)
      have : 0 < g ^ 2 := by positivity
      linarith
    have hw : 0 < weight ^ 2 := by positivity
    have : 0 < lr * weight ^ 2 * (inf.map fun g => g ^ 2).sum := by positivity
    linarith

/-- **C62.** The gradient of the loss in the multipliers is the infeasibility scaled by the weight: the loss is affine in them. -/
theorem C62_multiplier_gradient (damping weight : F) : ∀ (lam inf d : List F), lam.length = inf.length → d.length = inf.length →
    multiplierLoss damping weight (List.zipWith (· + ·) lam d) inf
      = multiplierLoss damping weight lam inf + (List.zipWith (fun g y => weight * g * y) inf d).sum := by
  intro lam
  induction lam with
  | nil =>
    intro inf d h _
    have : inf = [] := List.length_eq_zero_iff.1 h.symm
    subst this
    simp [multiplierLoss]
  | cons l lam ih =>
    intro inf d h hd
    cases inf with
    | nil => simp at h
    | cons g inf =>
      cases d with
      | nil => simp at hd
      | cons y d =>
        have := ih inf d (by simpa using h) (by simpa using hd)
        unfold multiplierLoss at this ⊢
        simp only [List.zipWith_cons_cons, List.sum_cons]
        have h2 : ∀ A B S, weight * A = weight * B + S →
            weight * ((l + y) * g + damping * g ^ 2 / 2 + A)
              = weight * (l * g + damping * g ^ 2 / 2 + B) + (weight * g * y + S) := by
          intro A B S hA
          linear_combination hA
        exact h2 _ _ _ this

variable {X : Type*}

/-- **C62.** An inequality constraint that is satisfied at the design it is initialised with has zero infeasibility there; one that is
violated has its value as infeasibility. Both for each component. -/
theorem C62_ineq_initial (sqrt : F → F) (hsq : ∀ y, 0 ≤ y → sqrt y ^ 2 = y) (fn : X → List F) (damping weight : F) (x : X) :
    let c := mdmmIneq sqrt fn damping weight
    (c.loss (c.init x) x).2 = (fn x).map fun y => min y 0 := by
  simp only [mdmmIneq, Option.getD_some, slackInfeasibility]
  rw [List.zipWith_map_right]
  generalize fn x = l
  induction l with
  | nil => rfl
  | cons y l ih =>
    simp only [List.zipWith_cons_cons, List.map_cons]
    refine List.cons_eq_cons.2 ⟨?_, ih⟩
    rw [hsq _ (le_max_right _ _)]
    rcases le_total y 0 with h | h
    · rw [max_eq_right h, min_eq_left h, sub_zero]
    · rw [max_eq_left h, min_eq_right h, sub_self]

/-- **C62.** An equality constraint starts with zero multipliers, and its infeasibility is the value of the function. -/
theorem C62_eq_initial (fn : X → List F) (damping weight : F) (x y : X) :
    let c := mdmmEq fn damping weight
    (∀ l ∈ (c.init x).lam, l = 0) ∧ (c.init x).lam.length = (fn x).length ∧ (c.loss (c.init x) y).2 = fn y := by
  refine ⟨?_, ?_, rfl⟩
  · intro l hl
    obtain ⟨_, _, rfl⟩ := List.mem_map.1 hl
    rfl
  · simp [mdmmEq]

/-- **C62.** `combine` adds the losses and lists the infeasibilities, for parameters from any designs. -/
theorem C62_combine {P : Type*} (cs : List (MConstraint P X F)) (hc : cs ≠ []) :
    ∃ init loss, mdmmCombine cs = .ok (init, loss) ∧
      (∀ x, init x = cs.map fun c => c.init x) ∧
      ∀ (ps : List P) (x : X) (hps : ps.length = cs.length),
        (loss ps x).1 = ∑ i : Fin cs.length, (cs[i].loss (ps[i]'(by omega)) x).1 ∧
        (loss ps x).2.length = cs.length ∧
        ∀ i : Fin cs.length, (loss ps x).2[i]? = some (cs[i].loss (ps[i]'(by omega)) x).2 := by
  refine ⟨fun x => cs.map fun c => c.init x, fun ps x =>
    (((List.zipWith (fun p c => c.loss p x) ps cs).map (·.1)).sum, (List.zipWith (fun p c => c.loss p x) ps cs).map (·.2)),
    ?_, fun _ => rfl, ?_⟩
  · unfold mdmmCombine
    rw [if_neg (by simpa using hc)]
  · intro ps x hps
    refine ⟨?_, ?_, ?_⟩
    · simp only
      have hl : (List.map (·.1) (List.zipWith (fun p c => c.loss p x) ps cs))
          = List.ofFn fun i : Fin cs.length => (cs[i].loss (ps[i]'(by omega)) x).1 := by
        apply List.ext_getElem
        · simp [hps]
        · intro i h1 h2
          simp
      rw [hl, List.sum_ofFn]
    · simp [hps]
    · intro i
      simp [hps]

/-- **C62.** Combining nothing raises. -/
theorem C62_combine_empty {P : Type*} : (mdmmCombine ([] : List (MConstraint P X F))).isOk = false := rfl

end

/-! ### A violated inequality constraint turns into an equality constraint -/

/-- The contribution of one component of an inequality constraint to the loss, as a function of its slack. -/
theorem slack_loss_single (damping weight l h s : ℝ) :
    (multiplierLoss damping weight [l] (slackInfeasibility [h] [s]))
      = weight * (l * (h - s ^ 2) + damping * (h - s ^ 2) ^ 2 / 2) := by
  simp [multiplierLoss, slackInfeasibility]

/-- The derivative of the loss with respect to the slack vanishes where the slack does, whatever the multiplier and the
constraint value. -/
theorem slack_gradient (damping weight l h s : ℝ) :
    HasDerivAt (fun s => multiplierLoss damping weight [l] (slackInfeasibility [h] [s]))
      (weight * (-2 * s * (l + damping * (h - s ^ 2)))) s := by
  simp only [slack_loss_single]
  have h1 : HasDerivAt (fun s : ℝ => h - s ^ 2) (-2 * s) s := by
    have := ((hasDerivAt_id s).pow 2).const_sub h
    refine this.congr_deriv ?_
    simp
  have h2 := ((h1.const_mul l).add (((h1.pow 2).const_mul damping).div_const 2)).const_mul weight
  refine h2.congr_deriv ?_
  simp
  ring

/-- Gradient descent on the slack of one constraint, while the design (constraint values `h k`), the multipliers `l k` and the step
sizes `lr k` go wherever they go; `grad` is the derivative. -/
noncomputable def slackAfter (damping weight : ℝ) (h l lr : ℕ → ℝ) (s0 : ℝ) : ℕ → ℝ
  | 0 => s0
  | k + 1 =>
    let s := slackAfter damping weight h l lr s0 k
    s - lr k * deriv (fun s => multiplierLoss damping weight [l k] (slackInfeasibility [h k] [s])) s

/-- **C62 fails.** An inequality constraint `h(x) ≥ 0` that is violated where it is initialised gets the slack 0, and no gradient step
ever changes it, whatever happens to the design and to the multipliers: the constraint acts as the equality `h(x) = 0`, and a
design that satisfies it strictly has a nonzero infeasibility. -/
theorem C62_violated_start_is_equality (damping weight : ℝ) (h l lr : ℕ → ℝ) (h0 : h 0 < 0) :
    let c := mdmmIneq Real.sqrt (fun k : ℕ => [h k]) damping weight
    ∃ s0, (c.init 0).slack = some [s0] ∧
      ∀ k, slackAfter damping weight h l lr s0 k = 0 ∧
        (c.loss ⟨[l k], some [slackAfter damping weight h l lr s0 k]⟩ k).2 = [h k] := by
  intro c
  refine ⟨Real.sqrt (max (h 0) 0), rfl, ?_⟩
  have hs : Real.sqrt (max (h 0) 0) = 0 := by rw [max_eq_right h0.le, Real.sqrt_zero]
  have hz : ∀ k, slackAfter damping weight h l lr (Real.sqrt (max (h 0) 0)) k = 0 := by
    intro k
    induction k with
    | zero => exact hs
    | succ k ih =>
      unfold slackAfter
      simp only [ih]
      rw [(slack_gradient damping weight (l k) (h k) 0).deriv]
      simp
  intro k
  refine ⟨hz k, ?_⟩
  rw [hz k]
  simp [c, mdmmIneq, slackInfeasibility]

/-- A satisfied start, for comparison: `h = 4` gives the slack 2 and no infeasibility; `sqrt` meets the hypothesis of
`C62_ineq_initial`. -/
example : (∀ y : ℝ, 0 ≤ y → Real.sqrt y ^ 2 = y) ∧
    ((mdmmIneq Real.sqrt (fun x : ℝ => [x]) 1 1).loss ((mdmmIneq Real.sqrt (fun x : ℝ => [x]) 1 1).init 4) 4).2 = [0] := by
  refine ⟨fun y hy => Real.sq_sqrt hy, ?_⟩
  rw [C62_ineq_initial Real.sqrt (fun y hy => Real.sq_sqrt hy)]
  simp

end Verif.Props
