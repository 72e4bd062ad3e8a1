import Verif.Model.Hooks
import Verif.Props.Kernels

/-!
# Properties of the hooks of a `Problem` (C139)
-/

namespace Verif.Props
open Verif.Model

/-- C139: a single-variable problem is always accepted; a multi-variable one exactly when it has a universal kernel method or
a weak form, and then the warning names exactly the single-variable hooks it defines. -/
theorem C139_validation (h : HookUse) :
    (h.numVars ≤ 1 → validateMultiVariable h = .ok []) ∧
    (validateMultiVariable h = .error .valueError ↔ 1 < h.numVars ∧ h.universalMethod = false ∧ h.weakForm = false) ∧
    ∀ names, 1 < h.numVars → validateMultiVariable h = .ok names → ∀ s, s ∈ names ↔
      (s = "get_tensor_map()" ∧ h.tensorMap = true) ∨ (s = "get_energy_density()" ∧ h.energyDensity = true) ∨
      (s = "get_mass_map()" ∧ h.massMap = true) ∨ (s = "get_surface_maps()" ∧ 0 < h.numSurfaceMaps) := by
  refine ⟨fun hv => by unfold validateMultiVariable; rw [if_pos hv], ?_, ?_⟩
  · unfold validateMultiVariable
    by_cases hv : h.numVars ≤ 1
    · rw [if_pos hv]
      simp
      omega
    · rw [if_neg hv]
      have hv' : 1 < h.numVars := by omega
      cases h.universalMethod <;> cases h.weakForm <;> simp [hv']
  · intro names hv hn s
    unfold validateMultiVariable at hn
    rw [if_neg (by omega)] at hn
    split_ifs at hn with hg
    all_goals
      simp only [Except.ok.injEq] at hn
      subst hn
      simp_all

example : validateMultiVariable ⟨2, true, false, false, 1, false, true⟩ = .ok ["get_tensor_map()", "get_surface_maps()"] := by
  decide

section
variable {K : Type} [CommRing K]

/-- C139: as the warning says, in a multi-variable problem the tensor map, the energy density and the mass map have no
effect on the element equations. -/
theorem C139_volume_hooks_ignored (vars : List Var) (dim : ℕ) (hv : 1 < vars.length) (ph ph' : Physics K)
    (hu : ph.universal = ph'.universal) (hw : ph.weakForm = ph'.weakForm) (he : ph.extra = ph'.extra) :
    createVolumeKernel vars dim ph = createVolumeKernel vars dim ph' := by
  unfold createVolumeKernel
  rw [hu, hw, he]
  cases ph'.universal with
  | some k => rfl
  | none => simp [hv]

/-- C139 fails: a surface map in a multi-variable problem is announced as ignored, but makes the assembly stop. -/
theorem C139_surface_map_not_ignored (vars : List Var) (hv : 1 < vars.length) (t : List K → List K → List K → List K)
    (h : HookUse) (hn : h.numVars = vars.length) (hs : h.numSurfaceMaps = 1) (hw : h.weakForm = true)
    (pts : List (QPoint K)) (flat : List K) :
    (∃ names, validateMultiVariable h = .ok names ∧ "get_surface_maps()" ∈ names) ∧
    createSurfaceKernel vars { maps := [t] } 0 pts flat = .error "ValueError" := by
  constructor
  · refine ⟨_, by unfold validateMultiVariable; rw [if_neg (by omega), if_neg (by simp [hw])], ?_⟩
    simp [hs]
  · simp [createSurfaceKernel, hv]

/-- C139 fails: a class whose `get_universal_kernel` returns nothing is accepted when the problem is made, and refused only
when the equations are assembled. -/
theorem C139_empty_universal_accepted (vars : List Var) (hv : 1 < vars.length) (dim : ℕ) (h : HookUse)
    (hn : h.numVars = vars.length) (hu : h.universalMethod = true) :
    (∃ names, validateMultiVariable h = .ok names) ∧
    createVolumeKernel vars dim ({ universal := none, weakForm := none } : Physics K) = .error "ValueError" := by
  constructor
  · exact ⟨_, by unfold validateMultiVariable; rw [if_neg (by omega), if_neg (by simp [hu])]⟩
  · simp [createVolumeKernel, hv]

/-- C139 fails: the weak form of a single-variable problem is never used and nothing is said: the problem is accepted and
its equations are the bare number zero whatever the weak form and the state. -/
theorem C139_single_weak_form_ignored (v : Var) (dim : ℕ) (wf : WeakForm K) (h : HookUse) (hn : h.numVars = 1) :
    validateMultiVariable h = .ok [] ∧
    ∃ k, createVolumeKernel [v] dim ({ weakForm := some wf } : Physics K) = .ok k ∧ ∀ pts flat, k pts flat = none := by
  constructor
  · unfold validateMultiVariable; rw [if_pos (by omega)]
  · obtain ⟨k, hk, hk2⟩ := C82_single_variable v dim ({ weakForm := some wf } : Physics K) rfl rfl
    exact ⟨k, hk, fun pts flat => by rw [hk2]; simp⟩

/-! ## Boundaries without a load -/

theorem scatterClamp_getD (v : List K) (ids : List ℕ) (n i : ℕ) (hi : i < n) :
    (scatterClamp v ids n).getD i 0
      = ((List.range ids.length).map fun j => if ids.getD j 0 = i then clampGet 0 v j else 0).sum := by
  unfold scatterClamp
  rw [segmentSum_getD _ _ _ _ hi, segSumAt_eq_sum]
  unfold gather
  rw [List.zip_map', List.map_map]
  exact ((argsort_perm ids).map _).sum_eq

theorem scatterClamp_length (v : List K) (ids : List ℕ) (n : ℕ) : (scatterClamp v ids n).length = n := by
  simp [scatterClamp, segmentSum]

theorem clampGet_append_left (a b : List K) (j : ℕ) (h : j < a.length) : clampGet 0 (a ++ b) j = clampGet 0 a j := by
  unfold clampGet
  rw [Nat.min_eq_left (by rw [List.length_append]; omega), Nat.min_eq_left (by omega), List.getD_append _ _ _ _ h]

theorem clampGet_append_zero (a b : List K) (hb : ∀ x ∈ b, x = 0) (hne : b ≠ []) (j : ℕ) (h : a.length ≤ j) :
    clampGet 0 (a ++ b) j = 0 := by
  unfold clampGet
  have hl : 0 < b.length := List.length_pos_of_ne_nil hne
  have h1 : a.length ≤ min j ((a ++ b).length - 1) := by rw [List.length_append]; omega
  rw [List.getD_append_right _ _ _ _ h1]
  have h2 : min j ((a ++ b).length - 1) - a.length < b.length := by rw [List.length_append]; omega
  rw [List.getD_eq_getElem _ _ h2]
  exact hb _ (List.getElem_mem h2)

/-- Zeros at the end, however many, are not seen. -/
theorem scatterClamp_zeros (a b : List K) (d e : List ℕ) (n : ℕ) (hl : a.length = d.length) (hb : ∀ x ∈ b, x = 0)
    (hne : e ≠ [] → b ≠ []) : scatterClamp (a ++ b) (d ++ e) n = scatterClamp a d n := by
  apply List.ext_getElem
  · rw [scatterClamp_length, scatterClamp_length]
  · intro i h1 h2
    rw [scatterClamp_length] at h2
    rw [← List.getD_eq_getElem _ 0, ← List.getD_eq_getElem _ 0, scatterClamp_getD _ _ _ _ h2, scatterClamp_getD _ _ _ _ h2,
      List.length_append, List.range_add, List.map_append, List.sum_append, List.map_map]
    have z : ((List.range e.length).map ((fun j => if (d ++ e).getD j 0 = i then clampGet 0 (a ++ b) j else 0) ∘
        fun x => d.length + x)).sum = 0 := by
      apply List.sum_eq_zero
      intro x hx
      obtain ⟨j, hj, rfl⟩ := List.mem_map.mp hx
      have he : e ≠ [] := by
        intro h
        rw [h] at hj
        simp at hj
      simp only [Function.comp_apply]
      rw [clampGet_append_zero a b hb (hne he) _ (by omega)]
      simp
    rw [z, add_zero]
    congr 1
    apply List.map_congr_left
    intro j hj
    have hj' : j < d.length := List.mem_range.mp hj
    rw [List.getD_append _ _ _ _ hj', clampGet_append_left _ _ _ (by omega)]

theorem mapM_ok_length {A B : Type} (f : A → Except String B) : ∀ (xs : List A) (ys : List B), xs.mapM f = .ok ys →
    ys.length = xs.length ∧ ∀ y ∈ ys, ∃ x ∈ xs, f x = .ok y
  | [], ys, h => by
    rw [List.mapM_nil] at h
    cases h
    simp
  | x :: xs, ys, h => by
    rw [List.mapM_cons] at h
    cases hf : f x with
    | error e => rw [hf] at h; cases h
    | ok y =>
      cases hr : xs.mapM f with
      | error e => rw [hf, hr] at h; cases h
      | ok zs =>
        rw [hf, hr] at h
        cases h
        obtain ⟨h1, h2⟩ := mapM_ok_length f xs zs hr
        refine ⟨by simp [h1], ?_⟩
        intro w hw
        rcases List.mem_cons.mp hw with rfl | hw
        · exact ⟨x, by simp, hf⟩
        · obtain ⟨x', hx', e⟩ := h2 w hw
          exact ⟨x', by simp [hx'], e⟩

theorem mapM_ok_of {A B : Type} (f : A → Except String B) : ∀ (xs : List A), (∀ x ∈ xs, ∃ y, f x = .ok y) →
    ∃ ys, xs.mapM f = .ok ys
  | [], _ => ⟨[], rfl⟩
  | x :: xs, h => by
    obtain ⟨y, hy⟩ := h x (by simp)
    obtain ⟨ys, hys⟩ := mapM_ok_of f xs (fun x' hx' => h x' (by simp [hx']))
    exact ⟨y :: ys, by rw [List.mapM_cons, hy, hys]; rfl⟩

/-- A boundary for which no hook has an entry gives zeros, at least one per face. -/
theorem surface_missing (vars : List Var) (hn : 0 < numDofs vars) (ph : SurfacePhysics K) (k : ℕ)
    (hm : ph.maps.length ≤ k) (hf : ph.forms.length ≤ k) (hu : ph.universal.length ≤ k) (pts : List (QPoint K))
    (flat : List K) : ∃ o, createSurfaceKernel vars ph k pts flat = .ok o ∧ o.getD [0] ≠ [] ∧ ∀ x ∈ o.getD [0], x = 0 := by
  unfold createSurfaceKernel
  rw [List.getElem?_eq_none hm, List.getElem?_eq_none hf, List.getElem?_eq_none hu]
  by_cases hv : vars.length > 1
  · rw [if_pos hv]
    simp only
    rw [if_neg (by omega)]
    refine ⟨_, rfl, ?_, ?_⟩
    · simp only [Option.getD_some, ne_eq, List.replicate_eq_nil_iff]
      omega
    · intro x hx
      exact List.eq_of_mem_replicate hx
  · rw [if_neg hv]
    exact ⟨none, rfl, by simp, by simp⟩

theorem surfaceValues_missing (vars : List Var) (hn : 0 < numDofs vars) (ph : SurfacePhysics K) :
    ∀ (d : List (List (List (QPoint K) × List K))) (k : ℕ), ph.maps.length ≤ k → ph.forms.length ≤ k →
      ph.universal.length ≤ k → ∃ vs, surfaceValues vars ph k d = .ok vs ∧
        (∀ x ∈ (vs.map rawValues).flatten, x = 0) ∧ (d.flatten ≠ [] → (vs.map rawValues).flatten ≠ [])
  | [], k, _, _, _ => ⟨[], rfl, by simp, by simp⟩
  | fs :: rest, k, hm, hf, hu => by
    obtain ⟨vs, h1, h2, h3⟩ := surfaceValues_missing vars hn ph rest (k + 1) (by omega) (by omega) (by omega)
    obtain ⟨v, hv⟩ := mapM_ok_of (fun f => createSurfaceKernel vars ph k f.1 f.2) fs (fun f _ => by
      obtain ⟨o, ho, _⟩ := surface_missing vars hn ph k hm hf hu f.1 f.2
      exact ⟨o, ho⟩)
    obtain ⟨hl, hmem⟩ := mapM_ok_length _ fs v hv
    have hz : ∀ o ∈ v, o.getD [0] ≠ [] ∧ ∀ x ∈ o.getD [0], x = 0 := by
      intro o ho
      obtain ⟨f, _, hf'⟩ := hmem o ho
      obtain ⟨o', ho', r⟩ := surface_missing vars hn ph k hm hf hu f.1 f.2
      rw [ho'] at hf'
      cases hf'
      exact r
    refine ⟨v :: vs, by rw [surfaceValues, hv, h1]; rfl, ?_, ?_⟩
    · intro x hx
      rw [List.map_cons, List.flatten_cons, List.mem_append] at hx
      rcases hx with hx | hx
      · unfold rawValues at hx
        obtain ⟨l, hl', hx⟩ := List.mem_flatten.mp hx
        obtain ⟨o, ho, rfl⟩ := List.mem_map.mp hl'
        exact (hz o ho).2 x hx
      · exact h2 x hx
    · intro hne
      rw [List.map_cons, List.flatten_cons]
      by_cases hfs : fs = []
      · subst hfs
        rw [List.flatten_cons, List.nil_append] at hne
        exact fun h => h3 hne (List.append_eq_nil_iff.mp h).2
      · obtain ⟨o, ho⟩ : ∃ o, o ∈ v := List.exists_mem_of_ne_nil v (by
          intro h
          rw [h] at hl
          exact hfs (List.eq_nil_of_length_eq_zero hl.symm))
        intro h
        have h0 := (List.append_eq_nil_iff.mp h).1
        unfold rawValues at h0
        rw [List.flatten_eq_nil_iff] at h0
        exact (hz o ho).1 (h0 _ (List.mem_map.mpr ⟨o, ho, rfl⟩))

theorem surfaceValues_append (vars : List Var) (ph : SurfacePhysics K) :
    ∀ (d₁ d₂ : List (List (List (QPoint K) × List K))) (k : ℕ) (v₁ v₂ : List (List (Option (List K)))),
      surfaceValues vars ph k d₁ = .ok v₁ → surfaceValues vars ph (k + d₁.length) d₂ = .ok v₂ →
      surfaceValues vars ph k (d₁ ++ d₂) = .ok (v₁ ++ v₂)
  | [], d₂, k, v₁, v₂, h1, h2 => by
    rw [surfaceValues] at h1
    cases h1
    simpa using h2
  | f :: d₁, d₂, k, v₁, v₂, h1, h2 => by
    rw [surfaceValues] at h1
    cases hf : f.mapM fun f => createSurfaceKernel vars ph k f.1 f.2 with
    | error e => rw [hf] at h1; cases h1
    | ok v =>
      cases hr : surfaceValues vars ph (k + 1) d₁ with
      | error e => rw [hf, hr] at h1; cases h1
      | ok vs =>
        rw [hf, hr] at h1
        cases h1
        have := surfaceValues_append vars ph d₁ d₂ (k + 1) vs v₂ hr
          (by rw [show k + 1 + d₁.length = k + (f :: d₁).length by simp; omega]; exact h2)
        rw [List.cons_append, surfaceValues, hf, this]
        rfl

/-- C139: declaring boundaries for which the problem has no load changes nothing. `loaded` are the faces of the boundaries
the hooks have an entry for, with well-formed values; `idle` are those of further boundaries: the residual is the one of the
problem that does not declare them. (The code relies on two things: the kernels of the idle boundaries return the bare
number zero or one zero per unknown of the whole problem, neither of which is the right size; and reading past the end of
the value array returns its last entry.) -/
theorem C139_idle_boundaries (p : Problem) (hn : 0 < p.n) (ph : SurfacePhysics K) (vol : List (Option (List K)))
    (loaded idle : List (List (List (QPoint K) × List K))) (fc₁ fc₂ : List (List ℕ)) (hfc : p.faceCells = fc₁ ++ fc₂)
    (hidle : idle.map List.length = fc₂.map List.length)
    (hm : ph.maps.length ≤ loaded.length) (hf : ph.forms.length ≤ loaded.length)
    (hu : ph.universal.length ≤ loaded.length) (vals : List (List (Option (List K))))
    (hvals : surfaceValues p.vars ph 0 loaded = .ok vals)
    (hshape : (rawValues vol ++ (vals.map rawValues).flatten).length = ({ p with faceCells := fc₁ } : Problem).resDofs.length) :
    ∃ all, surfaceValues p.vars ph 0 (loaded ++ idle) = .ok all ∧
      getResRaw p vol all = getResRaw { p with faceCells := fc₁ } vol vals := by
  obtain ⟨vs, h1, h2, h3⟩ := surfaceValues_missing p.vars hn ph idle loaded.length hm hf hu
  refine ⟨vals ++ vs, surfaceValues_append p.vars ph loaded idle 0 vals vs hvals (by rw [Nat.zero_add]; exact h1), ?_⟩
  unfold getResRaw
  have hd : p.resDofs = ({ p with faceCells := fc₁ } : Problem).resDofs ++
      ((fc₂.map (buildFaceInds p.vars)).flatten).flatten := by
    unfold Problem.resDofs Problem.faceInds Problem.volInds
    rw [hfc, List.map_append, List.flatten_append, List.flatten_append, List.append_assoc]
  rw [List.map_append, List.flatten_append, ← List.append_assoc, hd]
  refine scatterClamp_zeros _ _ _ _ _ hshape h2 ?_
  intro he
  apply h3
  intro hnil
  apply he
  have hz : ∀ l ∈ fc₂, l = [] := by
    intro l hl
    have : l.length ∈ idle.map List.length := by rw [hidle]; exact List.mem_map.mpr ⟨l, hl, rfl⟩
    obtain ⟨d, hd', e⟩ := List.mem_map.mp this
    rw [List.flatten_eq_nil_iff] at hnil
    rw [hnil d hd'] at e
    exact List.eq_nil_of_length_eq_zero e.symm
  rw [List.flatten_eq_nil_iff]
  intro x hx
  obtain ⟨y, hy, hx⟩ := List.mem_flatten.mp hx
  obtain ⟨l, hl, rfl⟩ := List.mem_map.mp hy
  rw [hz l hl] at hx
  simp [buildFaceInds] at hx

/-- C139 for the tangent: zero face blocks behind those of the loaded boundaries, of whatever size, add nothing to the CSR
values. -/
theorem C139_idle_boundaries_tangent (p : Problem) (n : ℕ) (loaded idle : List K) (hz : ∀ x ∈ idle, x = 0)
    (hl : loaded.length ≤ p.faceSlots.length) (hne : loaded.length < p.faceSlots.length → idle ≠ []) :
    scatterClamp (loaded ++ idle) p.faceSlots n = scatterClamp loaded (p.faceSlots.take loaded.length) n := by
  conv_lhs => rw [← List.take_append_drop loaded.length p.faceSlots]
  refine scatterClamp_zeros _ _ _ _ _ (by rw [List.length_take]; omega) hz ?_
  intro h
  apply hne
  by_contra hc
  exact h (List.drop_eq_nil_of_le (by omega))

end

/-- C139 fails for a problem with a surface load and no volume term: two bars without physics, a load 7 at the end node. The
cells give one bare zero each, so the face values are read at the wrong places: `get_res` reports a load of 14 at the end
and 7 at the middle node, while the fused residual of the solver has the load right. -/
theorem C139_surface_only_problem_wrong :
    getResRaw exP [none, none] [[some [(0 : ℤ), 7]]] = [0, 7, 14] ∧
    getResFusedRaw exP [none, none] [[some [(0 : ℤ), 7]]] = [0, 0, 7] := by
  decide +kernel

/-- The bare zeros are what a problem without volume hooks returns. -/
theorem C139_surface_only_kernel {K : Type} [CommRing K] (v : Var) (dim : ℕ) :
    ∃ k, createVolumeKernel [v] dim ({} : Physics K) = .ok k ∧ ∀ pts flat, k pts flat = none := by
  obtain ⟨k, hk, hk2⟩ := C82_single_variable v dim ({} : Physics K) rfl rfl
  exact ⟨k, hk, fun pts flat => by rw [hk2]; simp⟩

/-- Two bars, a load at one end (boundary 0) and an idle boundary at the other end. -/
example : ∃ all, surfaceValues [⟨1, 3, 2, [[0, 1], [1, 2]]⟩]
      ({ universal := [fun _ _ => [(0 : ℤ), 7]] } : SurfacePhysics ℤ) 0 ([[([], [])]] ++ [[([], [])]]) = .ok all ∧
    getResRaw ⟨[⟨1, 3, 2, [[0, 1], [1, 2]]⟩], 2, [[1], [0]], .full⟩ [some [2, -2], some [3, -3]] all
      = getResRaw ⟨[⟨1, 3, 2, [[0, 1], [1, 2]]⟩], 2, [[1]], .full⟩ [some [2, -2], some [3, -3]] [[some [0, 7]]] :=
  C139_idle_boundaries ⟨[⟨1, 3, 2, [[0, 1], [1, 2]]⟩], 2, [[1], [0]], .full⟩ (by decide)
    { universal := [fun _ _ => [(0 : ℤ), 7]] } [some [2, -2], some [3, -3]] [[([], [])]] [[([], [])]] [[1]] [[0]] rfl rfl
    (by simp) (by simp) (by simp) [[some [0, 7]]] rfl (by decide)

end Verif.Props
