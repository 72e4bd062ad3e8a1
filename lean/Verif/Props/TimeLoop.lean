import Verif.Lemmas.TimeLoop
import Mathlib.Algebra.Order.Archimedean.Basic
import Mathlib.Algebra.BigOperators.Group.List.Basic
import Mathlib.Algebra.Order.Field.Rat
import Mathlib.Tactic.Linarith
import Mathlib.Tactic.Ring
import Mathlib.Tactic.NormNum
import Mathlib.Tactic.Module

/-!
# C25, C26, C27, C28: time stepping
-/

namespace Verif.Props

open Verif.Model Verif.Spec Verif.Lemmas

section
variable {S K : Type*} [Field K] [LinearOrder K] [IsStrictOrderedRing K]

/-- Positive initial step size and, with adaptation, positive minimum and growth factor. -/
def PositiveSteps (job : TimeJob S K) : Prop :=
  0 < job.cfg.dt ∧ ∀ a, job.adaptive = some a → 0 < a.dtMin ∧ 0 < a.growth

theorem nextDt_pos (job : TimeJob S K) (hp : PositiveSteps job) (s : S) (k : ℕ) (t d : K) (hd : 0 < d) :
    0 < nextDt job s k t d := by
  unfold nextDt
  split
  · rename_i a f ha _
    obtain ⟨h1, h2⟩ := hp.2 a ha
    exact lt_min (lt_of_lt_of_le h1 (le_max_left _ _)) (mul_pos hd h2)
  · exact hd

theorem inv_dpos (job : TimeJob S K) (hp : PositiveSteps job) (ls : LoopState S K) (ds : List K)
    (hi : Inv job ls ds) : ∀ k ≤ ls.step, ∀ d, ds[k]? = some d → 0 < d := by
  intro k
  induction k with
  | zero =>
    intro _ d hd
    rw [hi.dfirst] at hd
    simp only [Option.some.injEq] at hd
    rw [← hd]; exact hp.1
  | succ n ih =>
    intro hn d hd
    obtain ⟨a, b, c, d0, d', _, _, _, h4, h5, _, _, _, _, _, _, h12⟩ := hi.chain n (by omega)
    rw [hd] at h5
    simp only [Option.some.injEq] at h5
    rw [h5, h12]
    exact nextDt_pos job hp _ _ _ _ (ih (by omega) d0 h4)

theorem inv_row (job : TimeJob S K) (ls : LoopState S K) (ds : List K) (hi : Inv job ls ds) :
    ∀ k ≤ ls.step, ∃ a, ls.hist[k]? = some a ∧ a.1 = k := by
  intro k hk
  rcases Nat.lt_or_ge k ls.step with h | h
  · obtain ⟨a, _, _, _, _, h1, _, _, _, _, h6⟩ := hi.chain k h
    exact ⟨a, h1, h6.1⟩
  · have : k = ls.step := by omega
    subst this
    exact ⟨_, hi.last, rfl⟩

theorem inv_hist_lt (job : TimeJob S K) (ls : LoopState S K) (ds : List K) (hi : Inv job ls ds) :
    ls.hist.map Prod.fst = List.range (ls.step + 1) := by
  apply List.ext_getElem?
  intro k
  rw [List.getElem?_map]
  rcases Nat.lt_or_ge k (ls.step + 1) with h | h
  · obtain ⟨a, h1, h2⟩ := inv_row job ls ds hi k (by omega)
    rw [h1, List.getElem?_range h]
    simp [h2]
  · rw [List.getElem?_eq_none (by rw [hi.len_h]; exact h), List.getElem?_eq_none (by simpa using h)]
    rfl

theorem inv_history (job : TimeJob S K) (ls : LoopState S K) (ds : List K) (hi : Inv job ls ds) :
    IsHistory job.pipe.step job.pipe.init job.cfg.tStart ls.hist (ls.calls.map Prod.snd) ls.step := by
  refine ⟨hi.len_h, by simp [hi.len_c], hi.first, ?_⟩
  intro k hk
  obtain ⟨⟨a1, a2, a3⟩, ⟨b1, b2, b3⟩, c, d, d', h1, h2, h3, h4, h5, h6, h7, h8, h9, h10, _, _⟩ := hi.chain k hk
  simp only at h6 h7 h8 h9 h10
  subst h6 h7
  refine ⟨a3, a2, b3, c.2, h1, by simp [h3], ?_, ?_⟩
  · rw [h2, h9]
  · rw [h8] at h10 ⊢; exact h10

theorem history_sum {step : S → K → K → Except PyErr S} {init : S} {t0 : K} {rows : List (ℕ × K × S)}
    {h : List K} {n : ℕ} (hh : IsHistory step init t0 rows h n) :
    ∀ k ≤ n, ∃ s, rows[k]? = some (k, t0 + (h.take k).sum, s) := by
  intro k
  induction k with
  | zero => intro _; exact ⟨init, by simpa using hh.first⟩
  | succ m ih =>
    intro hm
    obtain ⟨s, hs⟩ := ih (by omega)
    obtain ⟨s1, t1, s2, hk, h1, h2, h3, _⟩ := hh.next m (by omega)
    rw [hs] at h1
    simp only [Option.some.injEq, Prod.mk.injEq] at h1
    refine ⟨s2, ?_⟩
    rw [h3, ← h1.2.1]
    have : (h.take (m + 1)).sum = (h.take m).sum + hk := by
      rw [List.take_add_one, h2]
      simp
    rw [this, add_assoc]

/-- C25. A run that returns, with positive step sizes and `t_start ≤ t_end`: its history is the chain of
its steps from the initial condition, one row per step plus one; the last row is the returned state and
time; all steps are positive and add up to the elapsed time; no time is beyond the end time; the end time
is missed by at most `1e-14` initial steps. -/
theorem C25_ends_without_overshoot (job : TimeJob S K) (fuel : ℕ) (r : LoopState S K) (hp : PositiveSteps job)
    (hs : job.cfg.tStart ≤ job.cfg.tEnd) (h : timeRun job fuel = some (.ok r)) :
    IsHistory job.pipe.step job.pipe.init job.cfg.tStart r.hist (r.calls.map Prod.snd) r.step ∧
    r.hist[r.step]? = some (r.step, r.t, r.state) ∧
    (∀ x ∈ r.calls.map Prod.snd, 0 < x) ∧
    (r.calls.map Prod.snd).sum = r.t - job.cfg.tStart ∧
    (∀ row ∈ r.hist, row.2.1 ≤ job.cfg.tEnd) ∧
    job.cfg.tEnd - r.t ≤ 1 / 10 ^ 14 * job.cfg.dt := by
  obtain ⟨ls, ds, hi, hc, _, rfl⟩ := timeRun_ok job fuel r h
  have hh := inv_history job ls ds hi
  refine ⟨hh, hi.last, ?_, ?_, ?_, ?_⟩
  · intro x hx
    simp only [List.mem_map] at hx
    obtain ⟨c, hc1, rfl⟩ := hx
    obtain ⟨k, hk, hk2⟩ := List.mem_iff_getElem.1 hc1
    obtain ⟨a, b, c', d, d', h1, h2, h3, h4, h5, h6, h7, h8, h9, h10, h11, h12⟩ :=
      hi.chain k (by rw [← hi.len_c]; exact hk)
    rw [List.getElem?_eq_getElem hk, hk2] at h3
    simp only [Option.some.injEq] at h3
    rw [h3, h8]
    have hd := inv_dpos job hp ls ds hi k (by rw [← hi.len_c]; exact hk.le) d h4
    refine lt_min hd ?_
    have : 0 < 1 / 10 ^ 14 * job.cfg.dt := mul_pos (by positivity) hp.1
    linarith
  · obtain ⟨s, hs⟩ := history_sum hh ls.step le_rfl
    rw [hi.last] at hs
    simp only [Option.some.injEq, Prod.mk.injEq] at hs
    have h1 := hs.2.1
    rw [List.take_of_length_le (by simp [hi.len_c])] at h1
    rw [h1]; ring
  · intro row hrow
    obtain ⟨k, hk, hk2⟩ := List.mem_iff_getElem.1 hrow
    cases k with
    | zero =>
      have h1 := hi.first
      rw [List.getElem?_eq_getElem hk, hk2] at h1
      simp only [Option.some.injEq] at h1
      rw [h1]; exact hs
    | succ m =>
      have hm : m < ls.step := by
        have := hi.len_h
        simp only at hk
        omega
      obtain ⟨a, b, c', d, d', h1, h2, h3, h4, h5, h6, h7, h8, h9, h10, h11, h12⟩ := hi.chain m hm
      rw [List.getElem?_eq_getElem hk, hk2] at h2
      simp only [Option.some.injEq] at h2
      rw [h2, h9, h8]
      have := min_le_right d (job.cfg.tEnd - a.2.1)
      simp only
      linarith
  · simp only
    linarith [not_lt.1 hc]

/-- C25, fixed step size: every step but the last has exactly the requested size, the last is at most
that. -/
theorem C25_fixed_step_sizes (job : TimeJob S K) (fuel : ℕ) (r : LoopState S K) (hd : 0 < job.cfg.dt)
    (hn : job.adaptive = none ∨ job.pipe.adaptDt = none) (h : timeRun job fuel = some (.ok r)) :
    ∀ k x, (r.calls.map Prod.snd)[k]? = some x → x ≤ job.cfg.dt ∧ (k + 1 < r.step → x = job.cfg.dt) := by
  obtain ⟨ls, ds, hi, hc, _, rfl⟩ := timeRun_ok job fuel r h
  have hds : ∀ k ≤ ls.step, ∀ d, ds[k]? = some d → d = job.cfg.dt := by
    intro k
    induction k with
    | zero =>
      intro _ d hd
      rw [hi.dfirst] at hd
      simpa using hd.symm
    | succ n ih =>
      intro hk d hd
      obtain ⟨a, b, c, d0, d', _, _, _, h4, h5, _, _, _, _, _, _, h12⟩ := hi.chain n (by omega)
      rw [hd] at h5
      simp only [Option.some.injEq] at h5
      rw [h5, h12]
      have : nextDt job b.2.2 (n + 1) b.2.1 d0 = d0 := by
        unfold nextDt
        rcases hn with h | h <;> rw [h]
        split <;> simp_all
      rw [this]
      exact ih (by omega) d0 h4
  intro k x hx
  have hk : k < ls.step := by
    by_contra hh
    rw [List.getElem?_eq_none (by simp [hi.len_c]; omega)] at hx
    simp at hx
  obtain ⟨a, b, c, d, d', h1, h2, h3, h4, h5, h6, h7, h8, h9, h10, h11, h12⟩ := hi.chain k hk
  simp only [List.getElem?_map, h3, Option.map_some, Option.some.injEq] at hx
  rw [← hx, h8]
  have hdd := hds k hk.le d h4
  subst hdd
  refine ⟨min_le_left _ _, ?_⟩
  intro hk2
  simp only at hk2
  obtain ⟨a', b', c', e, e', g1, _, _, _, _, _, _, _, _, _, g11, _⟩ := hi.chain (k + 1) hk2
  rw [h2] at g1
  simp only [Option.some.injEq] at g1
  subst g1
  rw [h9, h8] at g11
  simp only at g11 ⊢
  have : 0 < 1 / 10 ^ 14 * job.cfg.dt := mul_pos (by positivity) hd
  by_contra hne
  have h13 : min job.cfg.dt (job.cfg.tEnd - a.2.1) = job.cfg.tEnd - a.2.1 := by
    rcases min_choice job.cfg.dt (job.cfg.tEnd - a.2.1) with h | h
    · exact absurd h hne
    · exact h
  rw [h13] at g11
  linarith

/-- Step sizes never fall below the smaller of the first and the minimum, if the growth factor is at
least one. -/
theorem nextDt_lower (job : TimeJob S K) (m : K) (hm : 0 < m)
    (ha : ∀ a, job.adaptive = some a → m ≤ a.dtMin ∧ 1 ≤ a.growth) (s : S) (k : ℕ) (t d : K) (hd : m ≤ d) :
    m ≤ nextDt job s k t d := by
  unfold nextDt
  split
  · rename_i a f h _
    obtain ⟨h1, h2⟩ := ha a h
    refine le_min (h1.trans (le_max_left _ _)) ?_
    nlinarith
  · exact hd

theorem loop_ends (job : TimeJob S K) (hdt : 0 < job.cfg.dt) (m : K) (hm : 0 < m)
    (ha : ∀ a, job.adaptive = some a → m ≤ a.dtMin ∧ 1 ≤ a.growth) (n : ℕ) (ls : LoopState S K)
    (hd : m ≤ ls.dt) (hn : job.cfg.tEnd - ls.t ≤ n * m) :
    (timeLoop job n ls).isSome = true := by
  induction n generalizing ls with
  | zero =>
    rw [timeLoop]
    have : 0 < 1 / 10 ^ 14 * job.cfg.dt := mul_pos (by positivity) hdt
    simp only [Nat.cast_zero, zero_mul] at hn
    rw [if_neg (by linarith)]
    rfl
  | succ n ih =>
    rw [timeLoop]
    by_cases hc : ls.t < job.cfg.tEnd - 1 / 10 ^ 14 * job.cfg.dt
    · rw [if_pos hc]
      cases hb : loopBody job ls with
      | error e => rfl
      | ok ls' =>
        simp only
        have h1 : ls'.t = ls.t + min ls.dt (job.cfg.tEnd - ls.t) ∧
            ls'.dt = nextDt job ls'.state ls'.step ls'.t ls.dt := by
          unfold loopBody at hb
          simp only at hb
          split at hb
          · simp at hb
          · split at hb
            · simp at hb
            · split at hb
              · simp at hb
              · split at hb
                · simp at hb
                · simp only [Except.ok.injEq] at hb
                  subst hb
                  exact ⟨rfl, rfl⟩
        apply ih
        · rw [h1.2]
          exact nextDt_lower job m hm ha _ _ _ _ hd
        · rw [h1.1]
          push_cast at hn
          rcases min_choice ls.dt (job.cfg.tEnd - ls.t) with h | h
          · rw [h]; linarith
          · rw [h]
            have : (0 : K) ≤ n * m := mul_nonneg (Nat.cast_nonneg n) hm.le
            linarith
    · rw [if_neg hc]; rfl

/-- C25, termination: with a positive step size and, when adaptive, a positive minimum and a growth factor
of at least one, the loop ends whatever the pipeline does and proposes. -/
theorem C25_terminates [Archimedean K] (job : TimeJob S K) (hdt : 0 < job.cfg.dt)
    (ha : ∀ a, job.adaptive = some a → 0 < a.dtMin ∧ 1 ≤ a.growth) :
    ∃ fuel, (timeRun job fuel).isSome = true := by
  obtain ⟨m, hm, hm1, hm2⟩ : ∃ m : K, 0 < m ∧ m ≤ job.cfg.dt ∧
      ∀ a, job.adaptive = some a → m ≤ a.dtMin ∧ 1 ≤ a.growth := by
    cases hj : job.adaptive with
    | none => exact ⟨job.cfg.dt, hdt, le_rfl, by simp⟩
    | some a =>
      obtain ⟨h1, h2⟩ := ha a hj
      refine ⟨min job.cfg.dt a.dtMin, lt_min hdt h1, min_le_left _ _, ?_⟩
      intro b hb
      simp only [Option.some.injEq] at hb
      subst hb
      exact ⟨min_le_right _ _, h2⟩
  obtain ⟨n, hn⟩ := Archimedean.arch (job.cfg.tEnd - job.cfg.tStart) hm
  rw [nsmul_eq_mul] at hn
  refine ⟨n, ?_⟩
  have h := loop_ends job hdt m hm hm2 n (startState job) hm1 hn
  unfold timeRun
  rw [if_neg hdt.ne']
  obtain ⟨x, hx⟩ := Option.isSome_iff_exists.1 h
  rw [hx]
  cases x with
  | error e => rfl
  | ok ls =>
    simp only
    split
    · rfl
    · split <;> rfl

theorem loop_mono (job : TimeJob S K) (m n : ℕ) (ls : LoopState S K) {x : Except (PyErr × LoopState S K) (LoopState S K)}
    (h : timeLoop job n ls = some x) : timeLoop job (n + m) ls = some x := by
  induction n generalizing ls with
  | zero =>
    rw [timeLoop] at h
    by_cases hc : ls.t < job.cfg.tEnd - 1 / 10 ^ 14 * job.cfg.dt
    · rw [if_pos hc] at h; simp at h
    · rw [if_neg hc] at h
      rw [timeLoop.eq_def]
      simp only [if_neg hc]
      exact h
  | succ n ih =>
    rw [timeLoop] at h
    have e : n + 1 + m = (n + m) + 1 := by omega
    rw [e, timeLoop]
    by_cases hc : ls.t < job.cfg.tEnd - 1 / 10 ^ 14 * job.cfg.dt
    · rw [if_pos hc] at h ⊢
      cases hb : loopBody job ls with
      | error e => rw [hb] at h; exact h
      | ok ls' => rw [hb] at h; exact ih ls' h
    · rw [if_neg hc] at h ⊢
      exact h

/-- C25: what a run returns does not depend on how long one waits. -/
theorem C25_outcome_unique (job : TimeJob S K) (m n : ℕ) (x y : Except (PyErr × LoopState S K) (LoopState S K))
    (h1 : timeRun job m = some x) (h2 : timeRun job n = some y) : x = y := by
  have key : ∀ (a b : ℕ) (z), timeRun job a = some z → timeRun job (a + b) = some z := by
    intro a b z h
    unfold timeRun at h ⊢
    split
    · rename_i h0; rw [if_pos h0] at h; exact h
    · rename_i h0
      rw [if_neg h0] at h
      cases hl : timeLoop job a (startState job) with
      | none => rw [hl] at h; simp at h
      | some w => rw [loop_mono job b a _ hl]; rw [hl] at h; exact h
  have a1 := key m n x h1
  have a2 := key n m y h2
  rw [Nat.add_comm n m, a1] at a2
  simpa using a2

/-! ## C26 -/

omit [Field K] [LinearOrder K] [IsStrictOrderedRing K] in
theorem filter_or_last {rows : List (ℕ × K × S)} {n : ℕ} {t : K} {s : S} (p : ℕ → Bool)
    (hr : rows.map Prod.fst = List.range (n + 1)) (hl : rows[n]? = some (n, t, s)) :
    rows.filter (fun r => p r.1 || decide (r.1 = n)) =
      rows.filter (fun r => p r.1) ++ (if p n then [] else [(n, t, s)]) := by
  have hlen : rows.length = n + 1 := by
    have := congrArg List.length hr
    simpa using this
  have hne : rows ≠ [] := by intro h; rw [h] at hlen; simp at hlen
  have hlast : rows.getLast hne = (n, t, s) := by
    rw [List.getLast_eq_getElem]
    have : n < rows.length := by omega
    rw [List.getElem?_eq_getElem this] at hl
    simp only [Option.some.injEq] at hl
    rw [← hl]
    congr 1
    omega
  have hdec := List.dropLast_append_getLast hne
  rw [hlast] at hdec
  have hlt : ∀ r ∈ rows.dropLast, r.1 ≠ n := by
    intro r hmem
    have h1 : r.1 ∈ (rows.dropLast).map Prod.fst := List.mem_map_of_mem hmem
    rw [List.map_dropLast, hr, List.range_succ, List.dropLast_concat] at h1
    have := List.mem_range.1 h1
    omega
  rw [← hdec, List.filter_append, List.filter_append]
  have e : rows.dropLast.filter (fun r => p r.1 || decide (r.1 = n)) = rows.dropLast.filter (fun r => p r.1) := by
    apply List.filter_congr
    intro r hmem
    simp [hlt r hmem]
  rw [e, List.append_assoc]
  congr 1
  cases hp : p n <;> simp [hp]

omit [Field K] [LinearOrder K] [IsStrictOrderedRing K] in
theorem flatMap_filter_eq {cbs : List ℕ} {i every : ℕ} (h : cbs[i]? = some every) (rows : List (Row S K)) :
    ((rows.flatMap (firedOf cbs)).filter (fun q => decide (q.1 = i))).map Prod.snd =
      rows.filter (fun r => decide (every ∣ r.1)) := by
  have one : ∀ (j : ℕ) (row : Row S K) (cbs : List ℕ), cbs[i - j]? = some every → j ≤ i →
      (((cbs.zipIdx j).filterMap (fun p => if p.1 ∣ row.1 then some (p.2, row) else none)).filter
        (fun q => decide (q.1 = i))).map Prod.snd = if every ∣ row.1 then [row] else [] := by
    intro j row cbs
    induction cbs generalizing j with
    | nil => intro h; simp at h
    | cons c rest ih =>
      intro h hj
      rw [List.zipIdx_cons, List.filterMap_cons]
      rcases Nat.eq_or_lt_of_le hj with he | hl
      · subst he
        simp only [Nat.sub_self, List.getElem?_cons_zero, Option.some.injEq] at h
        subst h
        have hrest : (((rest.zipIdx (j + 1)).filterMap (fun p => if p.1 ∣ row.1 then some (p.2, row) else none)).filter
            (fun q => decide (q.1 = j))) = [] := by
          rw [List.filter_eq_nil_iff]
          intro q hq
          rw [List.mem_filterMap] at hq
          obtain ⟨p, hp1, hp2⟩ := hq
          have := (List.mem_zipIdx hp1).1
          by_cases hd : p.1 ∣ row.1
          · rw [if_pos hd] at hp2
            simp only [Option.some.injEq] at hp2
            rw [← hp2]
            simp; omega
          · rw [if_neg hd] at hp2; simp at hp2
        by_cases hd : c ∣ row.1
        · simp only [if_pos hd, List.filter_cons]
          rw [hrest]
          simp
        · simp only [if_neg hd]
          rw [hrest]
          simp
      · have e : i - j = (i - (j + 1)) + 1 := by omega
        rw [e, List.getElem?_cons_succ] at h
        have := ih (j + 1) h hl
        by_cases hd : c ∣ row.1
        · simp only [if_pos hd, List.filter_cons]
          rw [if_neg (by simp; omega)]
          exact this
        · simp only [if_neg hd]
          exact this
  induction rows with
  | nil => rfl
  | cons r rest ih =>
    rw [List.flatMap_cons, List.filter_append, List.map_append, ih, List.filter_cons]
    have := one 0 r cbs (by simpa using h) (Nat.zero_le _)
    unfold firedOf
    rw [this]
    by_cases hd : every ∣ r.1
    · simp [hd]
    · simp [hd]

omit [Field K] [LinearOrder K] [IsStrictOrderedRing K] in
theorem tail_filter {rows : List (ℕ × K × S)} {n : ℕ} (hr : rows.map Prod.fst = List.range (n + 1)) (every : ℕ) :
    rows.tail.filter (fun r => decide (every ∣ r.1)) = callbackRows rows every := by
  cases rows with
  | nil => rfl
  | cons a rest =>
    rw [List.map_cons, List.range_succ_eq_map, List.cons.injEq] at hr
    unfold callbackRows
    rw [List.filter_cons, if_neg (by simp [hr.1]), List.tail_cons]
    apply List.filter_congr
    intro r hmem
    have h1 : r.1 ∈ rest.map Prod.fst := List.mem_map_of_mem hmem
    rw [hr.2, List.mem_map] at h1
    obtain ⟨m, _, hm⟩ := h1
    have : 0 < r.1 := by omega
    simp [this]

/-- C26. A run that returns: the history has exactly one row for each step `0, …, n`, in order; with an
output directory the snapshots are exactly the rows at step 0, at the multiples of `save_every` and at the
last step, each once and in order, and the CSV file has the rows of the steps `1, …, n`; without one nothing
is written; callback `i` is called exactly with the rows at the positive multiples of its period, in
order. -/
theorem C26_output_schedule (job : TimeJob S K) (fuel : ℕ) (r : LoopState S K)
    (h : timeRun job fuel = some (.ok r)) :
    r.hist.map Prod.fst = List.range (r.step + 1) ∧
    r.saves = (if job.output then snapshotRows r.hist job.cfg.saveEvery r.step else []) ∧
    r.csv = (if job.output then r.hist.tail else []) ∧
    ∀ i every, job.callbacks[i]? = some every →
      (r.fired.filter (fun q => decide (q.1 = i))).map Prod.snd = callbackRows r.hist every := by
  obtain ⟨ls, ds, hi, hc, _, rfl⟩ := timeRun_ok job fuel r h
  have hr := inv_hist_lt job ls ds hi
  refine ⟨hr, ?_, hi.csv, ?_⟩
  · simp only
    rw [hi.saves]
    cases ho : job.output with
    | false => simp
    | true =>
      simp only [if_true, Bool.true_and]
      have := filter_or_last (fun k => decide (job.cfg.saveEvery ∣ k)) hr hi.last
      unfold snapshotRows
      have e : (fun r : ℕ × K × S => decide (job.cfg.saveEvery ∣ r.1 ∨ r.1 = ls.step)) =
          fun r => decide (job.cfg.saveEvery ∣ r.1) || decide (r.1 = ls.step) := by
        funext r
        simp
      rw [e, this]
      by_cases hd : job.cfg.saveEvery ∣ ls.step
      · have h2 : ls.step % job.cfg.saveEvery = 0 := Nat.mod_eq_zero_of_dvd hd
        simp [hd, h2]
      · have h2 : ls.step % job.cfg.saveEvery ≠ 0 := fun hh => hd (Nat.dvd_of_mod_eq_zero hh)
        simp [hd, h2]
  · intro i every hcb
    simp only
    rw [hi.fired, flatMap_filter_eq hcb, tail_filter hr]

/-- C26: the snapshots are at strictly increasing steps (so none is written twice). -/
theorem C26_snapshots_increasing (job : TimeJob S K) (fuel : ℕ) (r : LoopState S K)
    (h : timeRun job fuel = some (.ok r)) : (r.saves.map Prod.fst).Pairwise (· < ·) := by
  obtain ⟨h1, h2, _, _⟩ := C26_output_schedule job fuel r h
  rw [h2]
  split
  · unfold snapshotRows
    have hs : ((r.hist.filter fun x => decide (job.cfg.saveEvery ∣ x.1 ∨ x.1 = r.step)).map Prod.fst).Sublist
        (List.range (r.step + 1)) := by
      rw [← h1]
      exact List.filter_sublist.map _
    exact List.Pairwise.sublist hs List.pairwise_lt_range
  · simp

/-- C26, crash: if the pipeline raises during step `n+1`, everything due for the `n` completed steps has
been written and nothing else: history rows `0 … n`, the snapshots at step 0 and the multiples of
`save_every`, the CSV rows `1 … n`, the callbacks due. -/
theorem C26_crash_keeps_completed_output (job : TimeJob S K) (fuel : ℕ) (e : PyErr) (r : LoopState S K)
    (hdt : job.cfg.dt ≠ 0) (hp : job.cfg.printEvery ≠ 0) (hs : job.cfg.saveEvery ≠ 0)
    (hcb : ∀ x ∈ job.callbacks, x ≠ 0) (h : timeRun job fuel = some (.error (e, r))) :
    ∃ n, r.step = n + 1 ∧
    IsHistory job.pipe.step job.pipe.init job.cfg.tStart r.hist (r.calls.map Prod.snd) n ∧
    (∃ hn, job.pipe.step r.state r.t hn = .error e) ∧ r.hist[n]? = some (n, r.t, r.state) ∧
    r.saves = (if job.output then r.hist.filter (fun x => decide (job.cfg.saveEvery ∣ x.1)) else []) ∧
    r.csv = (if job.output then r.hist.tail else []) ∧
    ∀ i every, job.callbacks[i]? = some every →
      (r.fired.filter (fun q => decide (q.1 = i))).map Prod.snd = callbackRows r.hist every := by
  unfold timeRun at h
  rw [if_neg hdt] at h
  cases hl : timeLoop job fuel (startState job) with
  | none => rw [hl] at h; simp at h
  | some x =>
    rw [hl] at h
    cases x with
    | ok ls =>
      simp only at h
      split at h
      · rename_i h2; simp [hs] at h2
      · split at h <;> simp at h
    | error w =>
      obtain ⟨e', r'⟩ := w
      simp only [Option.some.injEq, Except.error.injEq, Prod.mk.injEq] at h
      obtain ⟨rfl, rfl⟩ := h
      obtain ⟨ls, ds, hi, hr, hc, herr⟩ := loop_error job hp hs hcb fuel _ _ _ _ (inv_start job) hl
      subst hr
      refine ⟨ls.step, rfl, inv_history job ls ds hi, ⟨_, herr⟩, hi.last, hi.saves, hi.csv, ?_⟩
      intro i every hcb
      simp only
      rw [hi.fired, flatMap_filter_eq hcb, tail_filter (inv_hist_lt job ls ds hi)]

/-! ## C27 -/

/-- C27 (partial). There is a sequence of step sizes `d`, starting with the configured one, such that step
`k+1` of an adaptive run uses `d k` (all of it unless it is the last step) and `d (k+1)` is at most `dt_max`,
at most `growth` times `d k`, and at least `dt_min` or `growth` times `d k`, whichever is smaller; a proposal
within all three limits is used as it is.

Missing from the property: the lower bound `dt_min` itself, which fails
(`C27_can_go_below_minimum`). It holds when the first step size is not below `dt_min` and growth is at least
one (`C27_within_bounds_partial`). -/
theorem C27_step_sizes_partial (job : TimeJob S K) (fuel : ℕ) (r : LoopState S K) (a : AdaptiveDt K)
    (f : S → ℕ → K → K → K) (ha : job.adaptive = some a) (hf : job.pipe.adaptDt = some f)
    (hm : a.dtMin ≤ a.dtMax) (hdt : 0 < job.cfg.dt) (h : timeRun job fuel = some (.ok r)) :
    ∃ d : ℕ → K, d 0 = job.cfg.dt ∧
      (∀ k t hk, r.calls[k]? = some (t, hk) → hk ≤ d k ∧ (k + 1 < r.step → hk = d k)) ∧
      ∀ k, k + 1 ≤ r.step → d (k + 1) ≤ a.dtMax ∧ d (k + 1) ≤ d k * a.growth ∧
        min a.dtMin (d k * a.growth) ≤ d (k + 1) ∧
        ∀ row, r.hist[k + 1]? = some row → a.dtMin ≤ f row.2.2 (k + 1) row.2.1 (d k) →
          f row.2.2 (k + 1) row.2.1 (d k) ≤ a.dtMax → f row.2.2 (k + 1) row.2.1 (d k) ≤ d k * a.growth →
          d (k + 1) = f row.2.2 (k + 1) row.2.1 (d k) := by
  obtain ⟨ls, ds, hi, hc, _, rfl⟩ := timeRun_ok job fuel r h
  have hget : ∀ k x, ds[k]? = some x → ds.getD k 0 = x := by
    intro k x hx
    rw [List.getD_eq_getElem?_getD, hx]; rfl
  refine ⟨fun k => ds.getD k 0, hget _ _ hi.dfirst, ?_, ?_⟩
  · intro k t hk hcall
    simp only at hcall ⊢
    have hlt : k < ls.step := by
      by_contra hh
      rw [List.getElem?_eq_none (by rw [hi.len_c]; omega)] at hcall
      simp at hcall
    obtain ⟨x, b, c, d, d', h1, h2, h3, h4, h5, h6, h7, h8, h9, h10, h11, h12⟩ := hi.chain k hlt
    rw [hcall] at h3
    simp only [Option.some.injEq] at h3
    rw [← h3] at h8 h9
    simp only [Prod.mk.injEq] at h8
    rw [hget k d h4, h8.2]
    refine ⟨min_le_left _ _, ?_⟩
    intro hk2
    obtain ⟨a', b', c', e, e', g1, _, _, _, _, _, _, _, _, _, g11, _⟩ := hi.chain (k + 1) hk2
    rw [h2] at g1
    simp only [Option.some.injEq] at g1
    subst g1
    rw [h9, h8.2] at g11
    have : 0 < 1 / 10 ^ 14 * job.cfg.dt := mul_pos (by positivity) hdt
    by_contra hne
    have h13 : min d (job.cfg.tEnd - x.2.1) = job.cfg.tEnd - x.2.1 := by
      rcases min_choice d (job.cfg.tEnd - x.2.1) with h | h
      · exact absurd h hne
      · exact h
    rw [h13] at g11
    linarith
  · intro k hk
    simp only at hk ⊢
    obtain ⟨x, b, c, d, d', h1, h2, h3, h4, h5, h6, h7, h8, h9, h10, h11, h12⟩ := hi.chain k hk
    rw [hget k d h4, hget (k + 1) d' h5, h12]
    have e : nextDt job b.2.2 (k + 1) b.2.1 d =
        min (max a.dtMin (min a.dtMax (f b.2.2 (k + 1) b.2.1 d))) (d * a.growth) := by
      unfold nextDt
      rw [ha, hf]
    rw [e]
    refine ⟨(min_le_left _ _).trans (max_le hm (min_le_left _ _)), min_le_right _ _,
      min_le_min_right _ (le_max_left _ _), ?_⟩
    intro row hrow p1 p2 p3
    rw [h2] at hrow
    simp only [Option.some.injEq] at hrow
    subst hrow
    rw [min_eq_right p2, max_eq_right p1, min_eq_left p3]

/-- C27 (partial): with a first step size not below `dt_min` and a growth factor of at least one, every step
size chosen after a step lies in `[dt_min, dt_max]`. -/
theorem C27_within_bounds_partial (job : TimeJob S K) (fuel : ℕ) (r : LoopState S K) (a : AdaptiveDt K)
    (f : S → ℕ → K → K → K) (ha : job.adaptive = some a) (hf : job.pipe.adaptDt = some f)
    (hm : a.dtMin ≤ a.dtMax) (hpos : 0 < a.dtMin) (hg : 1 ≤ a.growth) (hdt : a.dtMin ≤ job.cfg.dt)
    (h : timeRun job fuel = some (.ok r)) :
    ∃ d : ℕ → K, d 0 = job.cfg.dt ∧
      (∀ k t hk, r.calls[k]? = some (t, hk) → hk ≤ d k ∧ (k + 1 < r.step → hk = d k)) ∧
      ∀ k, 1 ≤ k → k ≤ r.step → a.dtMin ≤ d k ∧ d k ≤ a.dtMax ∧ d k ≤ d (k - 1) * a.growth := by
  obtain ⟨d, d0, d1, d2⟩ := C27_step_sizes_partial job fuel r a f ha hf hm (lt_of_lt_of_le hpos hdt) h
  have low : ∀ k, k ≤ r.step → a.dtMin ≤ d k := by
    intro k
    induction k with
    | zero => intro _; rw [d0]; exact hdt
    | succ n ih =>
      intro hn
      have hd := ih (by omega)
      refine le_trans (le_min le_rfl ?_) (d2 n hn).2.2.1
      nlinarith
  refine ⟨d, d0, d1, ?_⟩
  intro k h1 h2
  obtain ⟨n, rfl⟩ : ∃ n, k = n + 1 := ⟨k - 1, by omega⟩
  exact ⟨low _ h2, (d2 n h2).1, (d2 n h2).2.1⟩

end

/-! ## Concrete runs -/

/-- An observation of a run that returned. -/
theorem ok_of_observed {S K α : Type*} {x : Option (Except (PyErr × LoopState S K) (LoopState S K))}
    (f : LoopState S K → α) (v : α)
    (h : (match x with | some (.ok r) => some (f r) | _ => none) = some v) :
    ∃ r, x = some (.ok r) ∧ f r = v := by
  match x, h with
  | some (.ok r), h => exact ⟨r, rfl, by simpa using h⟩
  | some (.error _), h => simp at h
  | none, h => simp at h

/-- An observation of a run that raised. -/
theorem error_of_observed {S K α : Type*} {x : Option (Except (PyErr × LoopState S K) (LoopState S K))}
    (f : PyErr × LoopState S K → α) (v : α)
    (h : (match x with | some (.error r) => some (f r) | _ => none) = some v) :
    ∃ r, x = some (.error r) ∧ f r = v := by
  match x, h with
  | some (.error r), h => exact ⟨r, rfl, by simpa using h⟩
  | some (.ok _), h => simp at h
  | none, h => simp at h

/-- Counting pipeline: the state is the number of steps taken; the proposal is constant. -/
def exPipe (prop : Option ℚ) : TimePipeline ℕ ℚ where
  init := 0
  step := fun s _ _ => .ok (s + 1)
  adaptDt := prop.map fun p => fun _ _ _ _ => p

/-- Five units of time in steps of two, snapshots every two steps, a callback every step. -/
def exTime : TimeJob ℕ ℚ :=
  ⟨⟨2, 5, 0, 2, 1⟩, exPipe none, none, true, [1, 3]⟩

/-- The run takes steps 2, 2, 1, and the snapshots are at steps 0, 2 and 3. -/
example : ∃ r, timeRun exTime 3 = some (.ok r) ∧ (r.step, r.t, r.calls) = (3, 5, [(0, 2), (2, 2), (4, 1)]) :=
  ok_of_observed (fun r => (r.step, r.t, r.calls)) _ (by decide +kernel)

example : ∃ r, timeRun exTime 3 = some (.ok r) ∧ r.saves = [(0, 0, 0), (2, 4, 2), (3, 5, 3)] :=
  ok_of_observed (fun r => r.saves) _ (by decide +kernel)

example : PositiveSteps exTime ∧ exTime.cfg.tStart ≤ exTime.cfg.tEnd := by
  refine ⟨⟨by decide +kernel, by intro a h; simp [exTime] at h⟩, by decide +kernel⟩

/-- The last snapshot is not doubled when the last step is a multiple of the period. -/
example : ∃ r, timeRun { exTime with cfg := ⟨2, 4, 0, 2, 1⟩ } 2 = some (.ok r) ∧
    r.saves = [(0, 0, 0), (2, 4, 2)] :=
  ok_of_observed (fun r => r.saves) _ (by decide +kernel)

/-- A pipeline that raises at its third step. -/
def exCrash : TimeJob ℕ ℚ :=
  { exTime with pipe := { exPipe none with step := fun s _ _ => if s = 2 then .error .runtimeError else .ok (s + 1) } }

example : ∃ r, timeRun exCrash 3 = some (.error r) ∧ (r.1, r.2.saves, r.2.csv.length) =
    (PyErr.runtimeError, [(0, 0, 0), (2, 4, 2)], 2) :=
  error_of_observed (fun r => (r.1, r.2.saves, r.2.csv.length)) _ (by decide +kernel)

/-- An adaptive run: steps start at 1 and the pipeline always proposes 100. -/
def exAdapt : TimeJob ℕ ℚ :=
  ⟨⟨1, 20, 0, 2, 1⟩, exPipe (some 100), some ⟨1 / 2, 5, 2⟩, false, []⟩

/-- The steps taken are 1, 2, 4, 5, 5, 3. -/
example : ∃ r, timeRun exAdapt 6 = some (.ok r) ∧ r.calls.map Prod.snd = [1, 2, 4, 5, 5, 3] :=
  ok_of_observed (fun r => r.calls.map Prod.snd) _ (by decide +kernel)

/-- C27 fails as stated: a run whose step sizes chosen after steps 1 and 2 are 2 and 4, below the minimum
10, although the proposal 100 and both bounds are above it. -/
theorem C27_can_go_below_minimum :
    ∃ (job : TimeJob ℕ ℚ) (a : AdaptiveDt ℚ) (r : LoopState ℕ ℚ), job.adaptive = some a ∧
      job.pipe.adaptDt.isSome = true ∧ timeRun job 4 = some (.ok r) ∧ a.dtMin = 10 ∧ a.dtMax = 1000 ∧
      a.growth = 2 ∧ r.calls.map Prod.snd = [1, 2, 4, 8] := by
  have h := ok_of_observed
    (x := timeRun ⟨⟨1, 15, 0, 2, 1⟩, exPipe (some 100), some ⟨10, 1000, 2⟩, false, []⟩ 4)
    (fun r => r.calls.map Prod.snd) [1, 2, 4, 8] (by decide +kernel)
  obtain ⟨r, h1, h2⟩ := h
  exact ⟨_, _, r, rfl, rfl, h1, rfl, rfl, rfl, h2⟩

/-- A growth factor below one: a run over three units of time starting with steps of one. -/
def exZeno : TimeJob ℕ ℚ :=
  ⟨⟨1, 3, 0, 2, 1⟩, exPipe (some 1), some ⟨1 / 10, 1, 1 / 2⟩, false, []⟩

theorem zeno_loop (n : ℕ) : ∀ ls : LoopState ℕ ℚ, ls.t + 2 * ls.dt = 2 → 0 < ls.dt → ls.dt ≤ 1 →
    timeLoop exZeno n ls = none := by
  have e1 : exZeno.cfg.tEnd = 3 := rfl
  have e2 : exZeno.cfg.dt = 1 := rfl
  induction n with
  | zero =>
    intro ls h1 h2 h3
    rw [timeLoop, if_pos]
    rw [e1, e2]
    norm_num
    linarith
  | succ n ih =>
    intro ls h1 h2 h3
    rw [timeLoop, if_pos (by rw [e1, e2]; norm_num; linarith)]
    have hmin : min ls.dt (exZeno.cfg.tEnd - ls.t) = ls.dt := by
      rw [e1]; exact min_eq_left (by linarith)
    have hb : loopBody exZeno ls = .ok
        { state := ls.state + 1, t := ls.t + ls.dt, dt := ls.dt * (1 / 2), step := ls.step + 1,
          calls := ls.calls ++ [(ls.t, ls.dt)], hist := ls.hist ++ [(ls.step + 1, ls.t + ls.dt, ls.state + 1)],
          csv := ls.csv, saves := ls.saves, fired := ls.fired } := by
      have hn : ∀ s k t, nextDt exZeno s k t ls.dt = ls.dt * (1 / 2) := by
        intro s k t
        have : nextDt exZeno s k t ls.dt = min (max (1 / 10) (min 1 1)) (ls.dt * (1 / 2)) := rfl
        rw [this, min_self, max_eq_right (by norm_num)]
        exact min_eq_right (by linarith)
      unfold loopBody
      rw [hmin]
      simp only [hn]
      rfl
    rw [hb]
    apply ih
    · simp only; linarith
    · simp only; linarith
    · simp only; linarith

/-- C25, the growth hypothesis is needed: with a growth factor of one half the step sizes shrink, the run
never gets past two of its three units of time, and the loop never ends, although every step size is
positive. -/
theorem C25_shrinking_steps_never_end : ∀ fuel, timeRun exZeno fuel = none := by
  intro fuel
  unfold timeRun
  have e2 : exZeno.cfg.dt = 1 := rfl
  rw [if_neg (by rw [e2]; norm_num)]
  rw [zeno_loop fuel (startState exZeno) (by simp [startState, exZeno]) (by simp [startState, exZeno])
    (by simp [startState, exZeno])]

/-! ## C28 -/

section
variable {K V : Type*} [Field K] [AddCommGroup V] [Module K V]

/-- C28, `y' = A y` for a linear `A` (in particular `A = a`): a step of each scheme is the Taylor polynomial
of `exp(h A) y` of degree 1, 2, 4. -/
theorem C28_linear_problems [CharZero K] (A : V →ₗ[K] V) (y : V) (t h : K) :
    explicitStep .euler (fun v _ => A v) y t h = .ok (y + h • A y) ∧
    explicitStep .rk2 (fun v _ => A v) y t h = .ok (y + h • A y + (h ^ 2 / 2) • A (A y)) ∧
    explicitStep .rk4 (fun v _ => A v) y t h = .ok
      (y + h • A y + (h ^ 2 / 2) • A (A y) + (h ^ 3 / 6) • A (A (A y)) + (h ^ 4 / 24) • A (A (A (A y)))) := by
  refine ⟨rfl, ?_, ?_⟩
  · simp only [explicitStep, axpy, map_add, map_smul]
    congr 1
    module
  · simp only [explicitStep, axpy, map_add, map_smul]
    congr 1
    module

/-- C28, scalar form: `y' = a y`. -/
theorem C28_scalar_rate [CharZero K] (a y t h : K) :
    explicitStep .euler (fun v _ => a * v) y t h = .ok ((1 + h * a) * y) ∧
    explicitStep .rk2 (fun v _ => a * v) y t h = .ok ((1 + h * a + (h * a) ^ 2 / 2) * y) ∧
    explicitStep .rk4 (fun v _ => a * v) y t h = .ok
      ((1 + h * a + (h * a) ^ 2 / 2 + (h * a) ^ 3 / 6 + (h * a) ^ 4 / 24) * y) := by
  refine ⟨?_, ?_, ?_⟩
  · simp only [explicitStep, axpy, smul_eq_mul]
    congr 1
    ring
  · simp only [explicitStep, axpy, smul_eq_mul]
    congr 1
    ring
  · simp only [explicitStep, axpy, smul_eq_mul]
    congr 1
    ring

/-- C28, pure time integration `y' = p(t)`: with `P` the antiderivative of `p`, the step from `t` adds exactly
`P(t + h) - P(t)`; `p` constant for euler, of degree 1 for rk2, of degree 3 for rk4. -/
theorem C28_time_polynomials [CharZero K] (c0 c1 c2 c3 : V) (y : V) (t h : K) :
    explicitStep .euler (fun _ _ => c0) y t h = .ok (y + ((t + h) • c0 - t • c0)) ∧
    explicitStep .rk2 (fun _ (s : K) => c0 + s • c1) y t h = .ok
      (y + (((t + h) • c0 + ((t + h) ^ 2 / 2) • c1) - (t • c0 + (t ^ 2 / 2) • c1))) ∧
    explicitStep .rk4 (fun _ (s : K) => c0 + s • c1 + s ^ 2 • c2 + s ^ 3 • c3) y t h = .ok
      (y + (((t + h) • c0 + ((t + h) ^ 2 / 2) • c1 + ((t + h) ^ 3 / 3) • c2 + ((t + h) ^ 4 / 4) • c3) -
        (t • c0 + (t ^ 2 / 2) • c1 + (t ^ 3 / 3) • c2 + (t ^ 4 / 4) • c3))) := by
  refine ⟨?_, ?_, ?_⟩
  · simp only [explicitStep, axpy]
    congr 1
    module
  · simp only [explicitStep, axpy]
    congr 1
    module
  · simp only [explicitStep, axpy]
    congr 1
    module

/-- C28: the three names are the only ones accepted, whatever the right-hand side. -/
theorem C28_other_schemes_rejected (f : V → K → V) (y : V) (t h : K) (name : String) :
    explicitStep (.other name) f y t h = .error .valueError ∧
    ∀ s : Scheme, s = .euler ∨ s = .rk2 ∨ s = .rk4 → ∃ z, explicitStep s f y t h = .ok z := by
  refine ⟨rfl, ?_⟩
  rintro s (rfl | rfl | rfl) <;> exact ⟨_, rfl⟩

end

/-- `y' = 2y` from 1 with step 1/2: 2, 5/2, 65/24 (the exact value is e ≈ 2.718). -/
example : explicitStep .euler (fun v (_ : ℚ) => 2 * v) (1 : ℚ) 0 (1 / 2) = .ok 2 ∧
    explicitStep .rk2 (fun v (_ : ℚ) => 2 * v) (1 : ℚ) 0 (1 / 2) = .ok (5 / 2) ∧
    explicitStep .rk4 (fun v (_ : ℚ) => 2 * v) (1 : ℚ) 0 (1 / 2) = .ok (65 / 24) := by
  refine ⟨?_, ?_, ?_⟩ <;> simp only [explicitStep, axpy, smul_eq_mul] <;> congr 1 <;> norm_num

end Verif.Props
