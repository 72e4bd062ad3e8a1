import Verif.Model.TimeLoop
import Verif.Spec.TimeLoop
import Mathlib.Data.List.GetD

/-!
# Loop invariant of the time loop
-/

namespace Verif.Lemmas

open Verif.Model

variable {S K : Type*} [Field K] [LinearOrder K]

/-- The callbacks fired by a history. -/
def firedOf (cbs : List ℕ) (row : Row S K) : List (ℕ × Row S K) :=
  cbs.zipIdx.filterMap fun p => if p.1 ∣ row.1 then some (p.2, row) else none

theorem fireCallbacks_ok (row : Row S K) (i : ℕ) (cbs : List ℕ) (acc r : List (ℕ × Row S K))
    (h : fireCallbacks row i cbs acc = .ok r) :
    r = acc ++ (cbs.zipIdx i).filterMap (fun p => if p.1 ∣ row.1 then some (p.2, row) else none) := by
  induction cbs generalizing i acc with
  | nil => simp [fireCallbacks] at h; simp [h]
  | cons e rest ih =>
    rw [fireCallbacks] at h
    by_cases h0 : e = 0
    · simp [h0] at h
    · rw [if_neg h0] at h
      by_cases hd : row.1 % e = 0
      · rw [if_pos hd] at h
        rw [ih _ _ h]
        simp [List.zipIdx_cons, Nat.dvd_of_mod_eq_zero hd]
      · rw [if_neg hd] at h
        rw [ih _ _ h]
        have : ¬ e ∣ row.1 := fun hh => hd (Nat.mod_eq_zero_of_dvd hh)
        simp [List.zipIdx_cons, this]

theorem fireCallbacks_total (row : Row S K) (i : ℕ) (cbs : List ℕ) (acc : List (ℕ × Row S K))
    (h : ∀ e ∈ cbs, e ≠ 0) : ∃ r, fireCallbacks row i cbs acc = .ok r := by
  induction cbs generalizing i acc with
  | nil => exact ⟨acc, rfl⟩
  | cons e rest ih =>
    rw [fireCallbacks, if_neg (h e (by simp))]
    split
    · exact ih _ _ fun x hx => h x (by simp [hx])
    · exact ih _ _ fun x hx => h x (by simp [hx])

/-- One completed pass: row `k`, row `k+1`, the arguments of the call and the step size before and
after. -/
def Link (job : TimeJob S K) (k : ℕ) (a b : Row S K) (c : K × K) (d d' : K) : Prop :=
  a.1 = k ∧ b.1 = k + 1 ∧ c = (a.2.1, min d (job.cfg.tEnd - a.2.1)) ∧ b.2.1 = a.2.1 + c.2 ∧
  job.pipe.step a.2.2 c.1 c.2 = .ok b.2.2 ∧ a.2.1 < job.cfg.tEnd - 1 / 10 ^ 14 * job.cfg.dt ∧
  d' = nextDt job b.2.2 (k + 1) b.2.1 d

structure Inv (job : TimeJob S K) (ls : LoopState S K) (ds : List K) : Prop where
  len_h : ls.hist.length = ls.step + 1
  len_c : ls.calls.length = ls.step
  len_d : ds.length = ls.step + 1
  first : ls.hist[0]? = some (0, job.cfg.tStart, job.pipe.init)
  last : ls.hist[ls.step]? = some (ls.step, ls.t, ls.state)
  dfirst : ds[0]? = some job.cfg.dt
  dlast : ds[ls.step]? = some ls.dt
  chain : ∀ k < ls.step, ∃ a b c d d', ls.hist[k]? = some a ∧ ls.hist[k + 1]? = some b ∧
    ls.calls[k]? = some c ∧ ds[k]? = some d ∧ ds[k + 1]? = some d' ∧ Link job k a b c d d'
  saves : ls.saves = if job.output then ls.hist.filter (fun r => decide (job.cfg.saveEvery ∣ r.1)) else []
  csv : ls.csv = if job.output then ls.hist.tail else []
  fired : ls.fired = ls.hist.tail.flatMap (firedOf job.callbacks)

theorem inv_start (job : TimeJob S K) : Inv job (startState job) [job.cfg.dt] := by
  constructor <;> simp [startState]

theorem getElem?_append_some {α : Type*} {l m : List α} {k : ℕ} {a : α} (h : l[k]? = some a) :
    (l ++ m)[k]? = some a := by
  have hk : k < l.length := by
    by_contra hh
    rw [List.getElem?_eq_none (by omega)] at h
    simp at h
  rw [List.getElem?_append_left hk, h]

theorem getElem?_append_last {α : Type*} {l : List α} {k : ℕ} (a : α) (h : l.length = k) :
    (l ++ [a])[k]? = some a := by
  subst h
  simp

theorem inv_body (job : TimeJob S K) (ls ls' : LoopState S K) (ds : List K) (hi : Inv job ls ds)
    (hc : ls.t < job.cfg.tEnd - 1 / 10 ^ 14 * job.cfg.dt) (hb : loopBody job ls = .ok ls') :
    Inv job ls' (ds ++ [ls'.dt]) := by
  unfold loopBody at hb
  simp only at hb
  cases hs : job.pipe.step ls.state ls.t (min ls.dt (job.cfg.tEnd - ls.t)) with
  | error e => rw [hs] at hb; simp at hb
  | ok s =>
    rw [hs] at hb
    simp only at hb
    by_cases hp : job.cfg.printEvery = 0
    · simp [hp] at hb
    rw [if_neg hp] at hb
    by_cases hsv : (job.output && job.cfg.saveEvery == 0) = true
    · rw [if_pos hsv] at hb; simp at hb
    rw [if_neg hsv] at hb
    cases hf : fireCallbacks (ls.step + 1, ls.t + min ls.dt (job.cfg.tEnd - ls.t), s) 0 job.callbacks ls.fired with
    | error f => rw [hf] at hb; simp at hb
    | ok f =>
      rw [hf] at hb
      simp only [Except.ok.injEq] at hb
      subst hb
      have hne : ls.hist ≠ [] := by
        intro h
        have := hi.len_h
        rw [h] at this; simp at this
      refine ⟨?_, ?_, ?_, ?_, ?_, ?_, ?_, ?_, ?_, ?_, ?_⟩
      · simp [hi.len_h]
      · simp [hi.len_c]
      · simp [hi.len_d]
      · exact getElem?_append_some hi.first
      · exact getElem?_append_last _ hi.len_h
      · exact getElem?_append_some hi.dfirst
      · exact getElem?_append_last _ hi.len_d
      · intro k hk
        simp only at hk
        rcases Nat.lt_succ_iff_lt_or_eq.1 hk with h | h
        · obtain ⟨a, b, c, d, d', h1, h2, h3, h4, h5, h6⟩ := hi.chain k h
          exact ⟨a, b, c, d, d', getElem?_append_some h1, getElem?_append_some h2, getElem?_append_some h3,
            getElem?_append_some h4, getElem?_append_some h5, h6⟩
        · subst h
          refine ⟨_, _, _, _, _, getElem?_append_some hi.last, getElem?_append_last _ hi.len_h,
            getElem?_append_last _ hi.len_c, getElem?_append_some hi.dlast, getElem?_append_last _ hi.len_d,
            rfl, rfl, rfl, rfl, hs, hc, rfl⟩
      · simp only
        rw [hi.saves]
        cases ho : job.output with
        | false => simp
        | true =>
          simp only [Bool.true_and, List.filter_append]
          by_cases hd : (ls.step + 1) % job.cfg.saveEvery = 0
          · simp [hd, Nat.dvd_of_mod_eq_zero hd]
          · have : ¬ job.cfg.saveEvery ∣ ls.step + 1 := fun hh => hd (Nat.mod_eq_zero_of_dvd hh)
            simp [hd, this]
      · simp only
        rw [hi.csv]
        cases ho : job.output with
        | false => simp
        | true => simp [List.tail_append_of_ne_nil hne]
      · simp only
        rw [fireCallbacks_ok _ _ _ _ _ hf, List.tail_append_of_ne_nil hne, List.flatMap_append, hi.fired]
        simp [firedOf]

theorem inv_loop (job : TimeJob S K) (fuel : ℕ) (ls r : LoopState S K) (ds : List K) (hi : Inv job ls ds)
    (h : timeLoop job fuel ls = some (.ok r)) :
    (∃ ds', Inv job r ds') ∧ ¬ r.t < job.cfg.tEnd - 1 / 10 ^ 14 * job.cfg.dt := by
  induction fuel generalizing ls ds with
  | zero =>
    rw [timeLoop] at h
    by_cases hc : ls.t < job.cfg.tEnd - 1 / 10 ^ 14 * job.cfg.dt
    · rw [if_pos hc] at h; simp at h
    · rw [if_neg hc] at h
      simp only [Option.some.injEq, Except.ok.injEq] at h
      subst h
      exact ⟨⟨ds, hi⟩, hc⟩
  | succ n ih =>
    rw [timeLoop] at h
    by_cases hc : ls.t < job.cfg.tEnd - 1 / 10 ^ 14 * job.cfg.dt
    · rw [if_pos hc] at h
      cases hb : loopBody job ls with
      | error e => rw [hb] at h; simp at h
      | ok ls' =>
        rw [hb] at h
        exact ih ls' _ (inv_body job ls ls' ds hi hc hb) h
    · rw [if_neg hc] at h
      simp only [Option.some.injEq, Except.ok.injEq] at h
      subst h
      exact ⟨⟨ds, hi⟩, hc⟩

/-- A run that returned: the loop's last state, satisfying the invariant, possibly with one more
snapshot. -/
theorem timeRun_ok (job : TimeJob S K) (fuel : ℕ) (r : LoopState S K) (h : timeRun job fuel = some (.ok r)) :
    ∃ ls ds, Inv job ls ds ∧ ¬ ls.t < job.cfg.tEnd - 1 / 10 ^ 14 * job.cfg.dt ∧ job.cfg.dt ≠ 0 ∧
      r = { ls with saves := if job.output && ls.step % job.cfg.saveEvery != 0 then
              ls.saves ++ [(ls.step, ls.t, ls.state)] else ls.saves } := by
  unfold timeRun at h
  by_cases h0 : job.cfg.dt = 0
  · simp [h0] at h
  rw [if_neg h0] at h
  cases hl : timeLoop job fuel (startState job) with
  | none => rw [hl] at h; simp at h
  | some x =>
    cases x with
    | error e => rw [hl] at h; simp at h
    | ok ls =>
      rw [hl] at h
      simp only at h
      obtain ⟨⟨ds, hi⟩, hc⟩ := inv_loop job fuel _ _ _ (inv_start job) hl
      refine ⟨ls, ds, hi, hc, h0, ?_⟩
      split at h
      · simp at h
      · split at h
        · rename_i h2
          simp only [Option.some.injEq, Except.ok.injEq] at h
          rw [← h, if_pos h2]
        · rename_i h2
          simp only [Option.some.injEq, Except.ok.injEq] at h
          rw [← h, if_neg h2]

/-- A pass that raises, when no period is zero: `pipeline.step` raised and the effects are those of the
completed passes. -/
theorem body_error (job : TimeJob S K) (ls ls' : LoopState S K) (e : PyErr) (hp : job.cfg.printEvery ≠ 0)
    (hs : job.cfg.saveEvery ≠ 0) (hcb : ∀ x ∈ job.callbacks, x ≠ 0) (hb : loopBody job ls = .error (e, ls')) :
    job.pipe.step ls.state ls.t (min ls.dt (job.cfg.tEnd - ls.t)) = .error e ∧
    ls' = { ls with step := ls.step + 1 } := by
  unfold loopBody at hb
  simp only at hb
  cases hst : job.pipe.step ls.state ls.t (min ls.dt (job.cfg.tEnd - ls.t)) with
  | error e' =>
    rw [hst] at hb
    simp only [Except.error.injEq, Prod.mk.injEq] at hb
    exact ⟨by rw [hb.1], hb.2.symm⟩
  | ok s =>
    rw [hst] at hb
    simp only at hb
    rw [if_neg hp, if_neg (by simp [hs])] at hb
    obtain ⟨f, hf⟩ := fireCallbacks_total (ls.step + 1, ls.t + min ls.dt (job.cfg.tEnd - ls.t), s) 0
      job.callbacks ls.fired hcb
    rw [hf] at hb
    simp at hb

theorem loop_error (job : TimeJob S K) (hp : job.cfg.printEvery ≠ 0)
    (hs : job.cfg.saveEvery ≠ 0) (hcb : ∀ x ∈ job.callbacks, x ≠ 0) (fuel : ℕ) (ls r : LoopState S K)
    (e : PyErr) (ds : List K) (hi : Inv job ls ds) (h : timeLoop job fuel ls = some (.error (e, r))) :
    ∃ ls0 ds', Inv job ls0 ds' ∧ r = { ls0 with step := ls0.step + 1 } ∧
      ls0.t < job.cfg.tEnd - 1 / 10 ^ 14 * job.cfg.dt ∧
      job.pipe.step ls0.state ls0.t (min ls0.dt (job.cfg.tEnd - ls0.t)) = .error e := by
  induction fuel generalizing ls ds with
  | zero =>
    rw [timeLoop] at h
    by_cases hc : ls.t < job.cfg.tEnd - 1 / 10 ^ 14 * job.cfg.dt
    · rw [if_pos hc] at h; simp at h
    · rw [if_neg hc] at h; simp at h
  | succ n ih =>
    rw [timeLoop] at h
    by_cases hc : ls.t < job.cfg.tEnd - 1 / 10 ^ 14 * job.cfg.dt
    · rw [if_pos hc] at h
      cases hb : loopBody job ls with
      | error e' =>
        rw [hb] at h
        simp only [Option.some.injEq, Except.error.injEq] at h
        subst h
        obtain ⟨h1, h2⟩ := body_error job ls r e hp hs hcb hb
        exact ⟨ls, ds, hi, h2, hc, h1⟩
      | ok ls' =>
        rw [hb] at h
        exact ih ls' _ (inv_body job ls ls' ds hi hc hb) h
    · rw [if_neg hc] at h
      simp at h

end Verif.Lemmas
