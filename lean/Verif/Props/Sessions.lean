import Verif.Model.Sessions

/-!
# Mesh generation cleans up after itself, wherever it fails (C142)
-/

namespace Verif.Props
open Verif.Model

/-- Bodies that open, close and create nothing themselves. -/
def SessProg.Plain : SessProg → Prop
  | .done => True
  | .op o rest => o = .call ∧ SessProg.Plain rest
  | .guard c rest => SessProg.Plain c ∧ SessProg.Plain rest
  | .tryFinally b c rest => SessProg.Plain b ∧ SessProg.Plain c ∧ SessProg.Plain rest

theorem plain_world (O : SessOracle) (p : SessProg) (hp : SessProg.Plain p) (s : SessState) :
    (p.run O s).world = s.world := by
  induction p generalizing s with
  | done => rfl
  | op o rest ih =>
    obtain ⟨rfl, hr⟩ := hp
    unfold SessProg.run
    split
    · rfl
    · rw [ih hr]; rfl
  | guard c rest ihc ihr =>
    unfold SessProg.run
    split
    · exact ihc hp.1 s
    · exact ihr hp.2 s
  | tryFinally b c rest ihb ihc ihr =>
    unfold SessProg.run
    simp only
    split
    · rw [ihc hp.2.1, ihb hp.1]
    · rw [ihr hp.2.2, ihc hp.2.1, ihb hp.1]

/-- A raised body does not go on. -/
theorem run_then (O : SessOracle) (p q : SessProg) (s : SessState) (hs : s.raised = false) :
    (p.then q).run O s = if (p.run O s).raised then p.run O s else q.run O (p.run O s) := by
  induction p generalizing s with
  | done => simp [SessProg.then, SessProg.run, hs]
  | op o rest ih =>
    simp only [SessProg.then, SessProg.run]
    by_cases h : (o.mayRaise && O.fails s.n) = true
    · simp [h]
    · simp only [h]
      exact ih _ rfl
  | guard c rest _ ihr =>
    simp only [SessProg.then, SessProg.run]
    by_cases h : O.bad s.n = true
    · simp [h]
    · simp only [h]
      exact ihr _ hs
  | tryFinally b c rest _ _ ihr =>
    simp only [SessProg.then, SessProg.run]
    by_cases h : ((b.run O s).raised || (c.run O (b.run O s)).raised) = true
    · simp [h]
    · simp only [h]
      refine ihr _ ?_
      simp only [Bool.or_eq_true, not_or, Bool.not_eq_true] at h
      exact h.2

/-- The option set between `gmsh.initialize()` and `try` did not raise. -/
def OptionOk (O : SessOracle) (before : SessProg) (s : SessState) : Prop :=
  O.fails ((before.run O s).n + 1) = false

theorem sessionMesher_world (O : SessOracle) (before body : SessProg) (hb : SessProg.Plain before)
    (hbody : SessProg.Plain body) (s : SessState) (hs : s.raised = false) (hclosed : s.world.session = false)
    (hopt : OptionOk O before s) : ((sessionMesher before body).run O s).world = s.world := by
  unfold sessionMesher
  rw [run_then O _ _ s hs]
  have hw := plain_world O before hb s
  split
  · exact hw
  · simp only [SessProg.run, SessOp.mayRaise, Bool.true_and, Bool.false_and]
    unfold OptionOk at hopt
    cases h1 : O.fails (before.run O s).n with
    | true => simpa using hw
    | false =>
      simp only [hopt, Bool.false_eq_true, if_false]
      have e := plain_world O body hbody ⟨(before.run O s).n + 1 + 1, SessOp.effect .call (SessOp.effect .init
        (before.run O s).world), false⟩
      have key : SessOp.effect .fin (body.run O ⟨(before.run O s).n + 1 + 1, SessOp.effect .call (SessOp.effect .init
          (before.run O s).world), false⟩).world = s.world := by
        rw [e, hw]
        unfold SessOp.effect
        rw [← hclosed]
      split <;> exact key

/-- C142 for the generators with `try ... finally`: they leave no Gmsh session open and no file behind, at whichever call
they fail, in the checks before or in the meshing (the user's geometry function included), with any number of calls; they
also leave the process as it was when they succeed. (Partial: a session the user had opened is closed, see
`C142_user_session_closed`; and setting the terminal option right after opening the session must not raise.) -/
theorem C142_generators_clean_partial (O : SessOracle) (before body : SessProg) (hb : SessProg.Plain before)
    (hbody : SessProg.Plain body) (w : SessWorld) (hclosed : w.session = false)
    (hopt : OptionOk O before ⟨0, w, false⟩) :
    ((sessionMesher before body).run O ⟨0, w, false⟩).world = w :=
  sessionMesher_world O before body hb hbody ⟨0, w, false⟩ rfl hclosed hopt

/-- C142 for `adaptive_box_mesh`: the same whatever the number of retries. -/
theorem C142_retries_clean (O : SessOracle) (before body : SessProg) (hb : SessProg.Plain before)
    (hbody : SessProg.Plain body) (hopt : ∀ s, OptionOk O before s) (k : ℕ) (s : SessState) (hs : s.raised = false)
    (hclosed : s.world.session = false) : ((retunedMesher before body k).run O s).world = s.world := by
  induction k generalizing s with
  | zero => exact sessionMesher_world O before body hb hbody s hs hclosed (hopt s)
  | succ k ih =>
    have h1 := sessionMesher_world O before body hb hbody s hs hclosed (hopt s)
    unfold retunedMesher
    rw [run_then O _ _ s hs]
    split
    · exact h1
    · rename_i h
      rw [ih _ (by simpa using h) (by rw [h1]; exact hclosed), h1]

/-- C142 fails for a user who has a Gmsh session: the generators close it, on success too. -/
theorem C142_user_session_closed (O : SessOracle) (body : SessProg) (files : Finset ℕ) (h0 : O.fails 0 = false)
    (h1 : O.fails 1 = false) (hbody : SessProg.Plain body) :
    ((sessionMesher .done body).run O ⟨0, ⟨true, files⟩, false⟩).world = ⟨false, files⟩ := by
  unfold sessionMesher
  simp only [SessProg.then, SessProg.run, SessOp.mayRaise, Bool.true_and, Bool.false_and, h0, h1, Bool.false_eq_true,
    if_false, Nat.zero_add]
  have e := plain_world O body hbody ⟨1 + 1, SessOp.effect .call (SessOp.effect .init ⟨true, files⟩), false⟩
  split <;> simp only [e] <;> rfl

theorem run_calls (O : SessOracle) (k : ℕ) (q : SessProg) (s : SessState) (hs : s.raised = false) :
    ((∀ i < k, O.fails (s.n + i) = false) ∧ (SessProg.calls k q).run O s = q.run O ⟨s.n + k, s.world, false⟩) ∨
      ((∃ i < k, O.fails (s.n + i) = true) ∧ ∃ n, (SessProg.calls k q).run O s = ⟨n, s.world, true⟩) := by
  induction k generalizing s with
  | zero =>
    left
    refine ⟨by simp, ?_⟩
    simp only [SessProg.calls, Nat.add_zero]
    rw [← hs]
  | succ k ih =>
    simp only [SessProg.calls, SessProg.run, SessOp.mayRaise, Bool.true_and]
    cases h : O.fails s.n with
    | true => exact .inr ⟨⟨0, by omega, by simpa using h⟩, s.n + 1, by simp⟩
    | false =>
      simp only [Bool.false_eq_true, if_false]
      rcases ih ⟨s.n + 1, SessOp.effect .call s.world, false⟩ rfl with ⟨h1, h2⟩ | ⟨⟨i, hi, hf⟩, h2⟩
      · left
        refine ⟨?_, ?_⟩
        · intro i hi
          cases i with
          | zero => simpa using h
          | succ i =>
            have := h1 i (by omega)
            simp only at this
            rw [← this]; congr 1; omega
        · rw [h2]
          simp only [SessOp.effect]
          rw [show s.n + 1 + k = s.n + (k + 1) by omega]
      · exact .inr ⟨⟨i + 1, by omega, by simp only at hf; rw [← hf]; congr 1; omega⟩, h2⟩

/-- C142 for the extraction of volume meshes, with every outside call accounted for. It cleans up when all goes well, when it
fails before the first file exists, and when Gmsh finds no surface. -/
theorem C142_extract_clean_partial (O : SessOracle) (pre mid gen : ℕ)
    (hok : (∀ i, O.fails i = false) ∨ (∃ i < pre, O.fails i = true) ∨
      ((∀ i, O.fails i = false) ∧ (O.bad pre = true ∨ O.bad (pre + 3 + mid) = true))) :
    ((extractVolume pre mid gen).run O ⟨0, ⟨false, ∅⟩, false⟩).world = ⟨false, ∅⟩ := by
  unfold extractVolume
  rcases run_calls O pre _ ⟨0, ⟨false, ∅⟩, false⟩ rfl with ⟨h1, h2⟩ | ⟨_, n, h2⟩
  rotate_left
  · rw [h2]
  have hall : ∀ i, O.fails i = false := by
    rcases hok with h | ⟨i, hi, hf⟩ | ⟨h, _⟩
    · exact h
    · have := h1 i hi
      simp only [Nat.zero_add] at this
      rw [this] at hf
      exact absurd hf (by decide)
    · exact h
  have hcalls : ∀ (k : ℕ) (q : SessProg) (s : SessState), s.raised = false →
      (SessProg.calls k q).run O s = q.run O ⟨s.n + k, s.world, false⟩ := by
    intro k q s hs
    rcases run_calls O k q s hs with ⟨_, h⟩ | ⟨⟨i, _, hf⟩, _⟩
    · exact h
    · rw [hall] at hf; exact absurd hf (by decide)
  rw [h2]
  simp only [SessProg.run, hall, Bool.and_false, Bool.false_eq_true, if_false, hcalls]
  split
  · rfl
  · split <;> rfl

/-- C142 fails for the extraction of volume meshes: when Gmsh cannot mesh the volume (the last of the calls before the second
file, `generate(3)`, raises), the session stays open and the STL file stays on disk. -/
theorem C142_failed_extraction_leaks (O : SessOracle) (pre mid gen : ℕ)
    (hok : ∀ i, O.fails i = decide (i = pre + 3 + mid + gen)) (hbad : ∀ i, O.bad i = false) :
    ((extractVolume pre mid (gen + 1)).run O ⟨0, ⟨false, ∅⟩, false⟩).raised = true ∧
      ((extractVolume pre mid (gen + 1)).run O ⟨0, ⟨false, ∅⟩, false⟩).world = ⟨true, {0}⟩ := by
  have hcalls : ∀ (k : ℕ) (q : SessProg) (s : SessState), s.raised = false → s.n + k ≤ pre + 3 + mid + gen →
      (SessProg.calls k q).run O s = q.run O ⟨s.n + k, s.world, false⟩ := by
    intro k q s hs hk
    rcases run_calls O k q s hs with ⟨_, h⟩ | ⟨⟨i, hi, hf⟩, _⟩
    · exact h
    · rw [hok, decide_eq_true_eq] at hf; omega
  have h1 : O.fails pre = false := by rw [hok]; simp only [decide_eq_false_iff_not]; omega
  have h2 : O.fails (pre + 1) = false := by rw [hok]; simp only [decide_eq_false_iff_not]; omega
  have h3 : O.fails (pre + 1 + 1) = false := by rw [hok]; simp only [decide_eq_false_iff_not]; omega
  have key : ∃ n, (extractVolume pre mid (gen + 1)).run O ⟨0, ⟨false, ∅⟩, false⟩ = ⟨n, ⟨true, {0}⟩, true⟩ := by
    unfold extractVolume
    rw [hcalls pre _ _ rfl (by simp only; omega)]
    simp only [SessProg.run, hbad, Bool.false_eq_true, if_false, Nat.zero_add, h1, h2, h3, Bool.and_false]
    rw [hcalls mid _ _ rfl (by simp only; omega)]
    simp only [SessProg.run, hbad, Bool.false_eq_true, if_false]
    rcases run_calls O (gen + 1) (.op (.temp 1) <| .op .call <| .op .fin <| .op .call <| .op .call <|
        .op (.unlink 0) <| .op (.unlink 1) .done) ⟨pre + 1 + 1 + 1 + mid, SessOp.effect .init (SessOp.effect .call
          (SessOp.effect (.temp 0) ⟨false, ∅⟩)), false⟩ rfl with ⟨h, _⟩ | ⟨_, n, h⟩
    · have := h gen (by omega)
      rw [hok, decide_eq_false_iff_not] at this
      exact absurd (by change pre + 1 + 1 + 1 + mid + gen = _; omega) this
    · exact ⟨n, by rw [h]; rfl⟩
  obtain ⟨n, e⟩ := key
  rw [e]
  exact ⟨rfl, rfl⟩

/-- Nothing fails. -/
def calm : SessOracle := ⟨fun _ => false, fun _ => false⟩

/-- A generator whose meshing raises at its third call. -/
def meshingFails : SessOracle := ⟨fun i => i == 4, fun _ => false⟩

example := C142_generators_clean_partial meshingFails .done (.calls 5 .done) trivial
  ⟨rfl, rfl, rfl, rfl, rfl, trivial⟩ ⟨false, {7}⟩ rfl rfl
example : ((sessionMesher .done (.calls 5 .done)).run meshingFails ⟨0, ⟨false, {7}⟩, false⟩).raised = true := by decide
example := C142_retries_clean calm .done (.calls 5 .done) trivial ⟨rfl, rfl, rfl, rfl, rfl, trivial⟩ (fun _ => rfl) 3
  ⟨0, ⟨false, ∅⟩, false⟩ rfl rfl
example := C142_user_session_closed calm (.calls 5 .done) ∅ rfl rfl ⟨rfl, rfl, rfl, rfl, rfl, trivial⟩
example := C142_extract_clean_partial calm 3 4 5 (.inl fun _ => rfl)
example : ((extractVolume 3 4 5).run calm ⟨0, ⟨false, ∅⟩, false⟩).raised = false := by decide
example := C142_failed_extraction_leaks ⟨fun i => decide (i = 3 + 3 + 4 + 4), fun _ => false⟩ 3 4 4 (fun _ => rfl)
  fun _ => rfl

end Verif.Props
