import Verif.Model.Import

/-!
# Properties of importing the package (C137)
-/

namespace Verif.Props
open Verif.Model

/-- The passes disabled by a list of flags. -/
def disabledPasses (fs : List XlaFlag) : List String :=
  fs.flatMap fun f => match f with | .disable ps => ps | .other _ => []

/-- The flags of other kinds. -/
def otherFlags (fs : List XlaFlag) : List String :=
  fs.filterMap fun f => match f with | .disable _ => none | .other s => some s

theorem merge_spec : ∀ fs : List XlaFlag, otherFlags (mergeFolding fs) = otherFlags fs ∧
    (∀ p, p ∈ disabledPasses (mergeFolding fs) ↔ p ∈ disabledPasses fs ∨ p = "constant_folding") := by
  intro fs
  induction fs with
  | nil => simp [mergeFolding, otherFlags, disabledPasses]
  | cons f t ih =>
    cases f with
    | disable ps =>
      simp only [mergeFolding]
      refine ⟨by simp [otherFlags], fun p => ?_⟩
      simp only [disabledPasses, List.flatMap_cons, List.mem_append, List.mem_singleton]
      tauto
    | other s =>
      obtain ⟨h1, h2⟩ := ih
      simp only [mergeFolding]
      refine ⟨?_, fun p => ?_⟩
      · simp only [otherFlags, List.filterMap_cons] at h1 ⊢
        rw [h1]
      · have := h2 p
        simp only [disabledPasses, List.flatMap_cons, List.nil_append] at this ⊢
        exact this

/-- C137: double precision unless `FEAX_X64` is set to a no-value. -/
theorem C137_precision (mentions : String → Bool) (e : FeaxEnv) :
    (importFeax mentions e).2 = true ↔ ∀ s, e.x64 = some s → s ∉ ["0", "false", "no", "off", ""] := by
  unfold importFeax resolveX64
  cases e.x64 <;> simp

/-- C137: a preallocation setting present before the import is kept; otherwise it is set to what `FEAX_PREALLOCATE` says,
off by default. -/
theorem C137_preallocation (mentions : String → Bool) (e : FeaxEnv) :
    (∀ s, e.xlaPreallocate = some s → (importFeax mentions e).1.xlaPreallocate = some s) ∧
    (e.xlaPreallocate = none →
      (e.feaxPreallocate ∈ [some "1", some "true", some "yes", some "on"] →
        (importFeax mentions e).1.xlaPreallocate = some "true") ∧
      (e.feaxPreallocate ∉ [some "1", some "true", some "yes", some "on"] →
        (importFeax mentions e).1.xlaPreallocate = some "false")) := by
  unfold importFeax envOn
  refine ⟨fun s h => by simp [h], fun h => ?_⟩
  cases hf : e.feaxPreallocate with
  | none => simp [h]
  | some s =>
    simp only [h, List.mem_cons, Option.some.injEq, List.not_mem_nil, or_false, decide_eq_true_eq]
    refine ⟨fun hs => by rw [if_pos hs], fun hs => by rw [if_neg hs]⟩

/-- C137: no flag of the user is lost, no pass they disabled is enabled again, and nothing but constant folding is disabled
in addition. -/
theorem C137_flags_preserved (mentions : String → Bool) (e : FeaxEnv) :
    otherFlags (importFeax mentions e).1.xlaFlags = otherFlags e.xlaFlags ∧
    (∀ p ∈ disabledPasses e.xlaFlags, p ∈ disabledPasses (importFeax mentions e).1.xlaFlags) ∧
    (∀ p ∈ disabledPasses (importFeax mentions e).1.xlaFlags, p ∈ disabledPasses e.xlaFlags ∨ p = "constant_folding") ∧
    (importFeax mentions e).1.feaxPreallocate = e.feaxPreallocate ∧
    (importFeax mentions e).1.constantFolding = e.constantFolding ∧ (importFeax mentions e).1.x64 = e.x64 := by
  unfold importFeax
  simp only
  refine ⟨?_, ?_, ?_, trivial, trivial, trivial⟩ <;> split_ifs <;> first | rfl | exact (merge_spec _).1 | skip
  · exact fun p h => h
  · exact fun p h => h
  · exact fun p h => ((merge_spec _).2 p).mpr (Or.inl h)
  · exact fun p h => Or.inl h
  · exact fun p h => Or.inl h
  · exact fun p h => ((merge_spec _).2 p).mp h

/-- C137: constant folding is disabled after the import unless it was asked to be kept, provided the flags did not already
mention it. -/
theorem C137_folding_disabled_partial (mentions : String → Bool) (e : FeaxEnv)
    (hkeep : e.constantFolding ∉ [some "1", some "true", some "yes", some "on"])
    (hno : ∀ f ∈ e.xlaFlags, flagMentions mentions f = false) :
    "constant_folding" ∈ disabledPasses (importFeax mentions e).1.xlaFlags := by
  have hk : envOn e.constantFolding = false := by
    unfold envOn
    cases hc : e.constantFolding with
    | none => rfl
    | some s =>
      rw [hc] at hkeep
      simp only [List.mem_cons, Option.some.injEq, List.not_mem_nil, or_false] at hkeep
      simp [hkeep]
  have ha : e.xlaFlags.any (flagMentions mentions) = false := by
    rw [List.any_eq_false]
    intro f hf
    simp [hno f hf]
  unfold importFeax
  simp only [hk, ha, Bool.false_eq_true, if_false]
  exact ((merge_spec _).2 _).mpr (Or.inr rfl)

/-- C137: asked to keep constant folding, the import leaves the flags alone. -/
theorem C137_folding_kept (mentions : String → Bool) (e : FeaxEnv)
    (hkeep : e.constantFolding ∈ [some "1", some "true", some "yes", some "on"]) :
    (importFeax mentions e).1.xlaFlags = e.xlaFlags := by
  have hk : envOn e.constantFolding = true := by
    unfold envOn
    cases hc : e.constantFolding with
    | none => rw [hc] at hkeep; simp at hkeep
    | some s =>
      rw [hc] at hkeep
      simp only [List.mem_cons, Option.some.injEq, List.not_mem_nil, or_false] at hkeep
      simpa using hkeep
  unfold importFeax
  simp [hk]

/-- C137: a second import (a child process inheriting the environment) changes nothing. -/
theorem C137_idempotent (mentions : String → Bool) (hm : mentions "constant_folding" = true) (e : FeaxEnv) :
    importFeax mentions (importFeax mentions e).1 = importFeax mentions e := by
  have hmm : ∀ fs, (mergeFolding fs).any (flagMentions mentions) = true := by
    intro fs
    induction fs with
    | nil => simp [mergeFolding, flagMentions, hm]
    | cons f t ih =>
      cases f with
      | disable ps => simp [mergeFolding, flagMentions, hm]
      | other s => simp only [mergeFolding, List.any_cons, ih, Bool.or_true]
  unfold importFeax
  simp only
  congr 1
  congr 1
  · cases e.xlaPreallocate <;> rfl
  · by_cases hk : envOn e.constantFolding = true
    · simp [hk]
    · by_cases ha : e.xlaFlags.any (flagMentions mentions) = true
      · rw [if_neg hk, if_neg hk, if_pos ha, if_pos ha]
      · rw [if_neg hk, if_neg hk, if_neg ha, if_pos (hmm _)]

/-- C137 fails when the word occurs in another flag: any flag that mentions constant folding without disabling it (a dump
filter, a longer pass name) keeps it enabled. -/
theorem C137_mention_keeps_folding (mentions : String → Bool) (s : String) (hs : mentions s = true) (ps : List String)
    (hp : "constant_folding" ∉ ps) :
    "constant_folding" ∉ disabledPasses (importFeax mentions { xlaFlags := [.disable ps, .other s] }).1.xlaFlags := by
  unfold importFeax
  simp [envOn, flagMentions, hs, disabledPasses, hp]

example := C137_folding_disabled_partial (fun s => s == "constant_folding") { xlaFlags := [.other "--xla_a", .disable ["dce"]] }
  (by decide) (by decide)
example : (importFeax (fun s => s == "constant_folding") { xlaFlags := [.other "--xla_a", .disable ["dce"]] }).1.xlaFlags
    = [.other "--xla_a", .disable ["dce", "constant_folding"]] := by decide
example := C137_idempotent (fun s => s == "constant_folding") rfl { xlaFlags := [.other "--xla_a"], x64 := some "0" }
example := C137_mention_keeps_folding (fun s => s == "--xla_dump_hlo_pass_re=constant_folding")
  "--xla_dump_hlo_pass_re=constant_folding" (by simp) ["dce"] (by decide)

end Verif.Props
