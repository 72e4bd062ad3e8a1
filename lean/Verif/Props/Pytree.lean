import Verif.Model.Pytree
import Verif.Props.Vars
import Verif.Lemmas.Arr
import Verif.Lemmas.Layout
import Verif.Lemmas.Assembly
import Mathlib.Tactic.Linarith
import Mathlib.Algebra.BigOperators.Ring.List

/-!
# C58: pytree round trips; C77: uniform and solved coefficients
-/

namespace Verif.Props
open Verif.Model

section params
variable {A B : Type}

theorem takeGroups_flatten (gs : List (List A)) : takeGroups (gs.map List.length) gs.flatten = gs := by
  induction gs with
  | nil => rfl
  | cons g gs ih => simp [takeGroups, ih]

theorem takeGroups_map (f : A → B) (ns : List ℕ) (xs : List A) :
    takeGroups ns (xs.map f) = (takeGroups ns xs).map (List.map f) := by
  induction ns generalizing xs with
  | nil => rfl
  | cons n ns ih => simp only [takeGroups, List.map_cons, List.map_take, List.map_drop, ← ih]

theorem takeGroups_spec (ns : List ℕ) (xs : List A) (h : xs.length = ns.sum) :
    (takeGroups ns xs).flatten = xs ∧ (takeGroups ns xs).map List.length = ns := by
  induction ns generalizing xs with
  | nil => simp at h; simp [takeGroups, h]
  | cons n ns ih =>
    rw [List.sum_cons] at h
    obtain ⟨h1, h2⟩ := ih (xs.drop n) (by rw [List.length_drop]; omega)
    refine ⟨by simp [takeGroups, h1], ?_⟩
    simp only [takeGroups, List.map_cons, h2, List.length_take]
    rw [Nat.min_eq_left (by omega)]

/-- **C58, parameters.** Flattening and unflattening gives the same parameters. -/
theorem C58_params_roundtrip (t : TracedParams A) : TracedParams.unflatten t.flatten.2 t.flatten.1 = t := by
  simp [TracedParams.flatten, TracedParams.unflatten, takeGroups_flatten]

/-- Conversely, any list with the right number of leaves survives, with its structure. -/
theorem C58_params_leaves (aux : ParamsAux) (xs : List A) (h : xs.length = aux.1 + aux.2.sum) :
    (TracedParams.unflatten aux xs).flatten = (xs, aux) := by
  obtain ⟨h1, h2⟩ := takeGroups_spec aux.2 (xs.drop aux.1) (by rw [List.length_drop]; omega)
  simp only [TracedParams.flatten, TracedParams.unflatten, h1, h2, List.take_append_drop, List.length_take]
  rw [Nat.min_eq_left (by omega)]

/-- Mapping over the leaves (what `grad`, `vmap` and `tree_map` do) acts on every volume and surface array in place. -/
theorem C58_params_map (f : A → B) (t : TracedParams A) :
    t.treeMap f = ⟨t.volumeVars.map f, t.surfaceVars.map (List.map f)⟩ := by
  simp only [TracedParams.treeMap, TracedParams.flatten, TracedParams.unflatten, ← List.map_take, ← List.map_drop,
    takeGroups_map, List.take_left, List.drop_left, takeGroups_flatten]

/-- Two sets of parameters have the same structure exactly if they have the same number of volume variables, of surfaces,
and of variables on each surface. -/
theorem C58_params_structure (s t : TracedParams A) :
    s.flatten.2 = t.flatten.2 ↔
      s.volumeVars.length = t.volumeVars.length ∧ s.surfaceVars.length = t.surfaceVars.length ∧
        ∀ k < s.surfaceVars.length, (s.surfaceVars.getD k []).length = (t.surfaceVars.getD k []).length := by
  simp only [TracedParams.flatten, Prod.mk.injEq]
  refine and_congr_right fun _ => ?_
  constructor
  · intro h
    have hl : s.surfaceVars.length = t.surfaceVars.length := by simpa using congrArg List.length h
    refine ⟨hl, fun k hk => ?_⟩
    have : (s.surfaceVars.map List.length).getD k 0 = (t.surfaceVars.map List.length).getD k 0 := by rw [h]
    rw [List.getD_eq_getElem _ _ (by simpa using hk), List.getD_eq_getElem _ _ (by simpa [← hl] using hk), List.getElem_map,
      List.getElem_map] at this
    rw [List.getD_eq_getElem _ _ hk, List.getD_eq_getElem _ _ (by omega)]
    exact this
  · rintro ⟨hl, h⟩
    refine List.ext_getElem (by simpa using hl) fun k h1 h2 => ?_
    have hk : k < s.surfaceVars.length := by simpa using h1
    have := h k hk
    rw [List.getD_eq_getElem _ _ hk, List.getD_eq_getElem _ _ (by omega)] at this
    simpa using this

/-- The number of leaves is determined by the structure. -/
theorem leaves_length (t : TracedParams A) : t.flatten.1.length = t.flatten.2.1 + t.flatten.2.2.sum := by
  simp [TracedParams.flatten, List.length_flatten]

/-- **C58, batches.** Lane `i` of parameters stacked leaf by leaf is the `i`-th set of parameters: this is what a solver
under `vmap` receives. -/
theorem C58_params_lane (d : A) (ts : List (TracedParams A)) (s : TracedParams (List A))
    (h : TracedParams.stack d ts = .ok s) (i : ℕ) (hi : i < ts.length) : TracedParams.lane d i s = ts[i] := by
  match ts, h with
  | t :: rest, h =>
    simp only [TracedParams.stack] at h
    split at h
    · rename_i hall
      simp only [Except.ok.injEq] at h
      rw [← h, TracedParams.lane, C58_params_map]
      have hsame : ∀ u ∈ t :: rest, u.flatten.2 = t.flatten.2 := by
        intro u hu
        rcases List.mem_cons.1 hu with rfl | hu
        · rfl
        · simpa using List.all_eq_true.1 hall u hu
      have hi' : (t :: rest)[i].flatten.2 = t.flatten.2 := hsame _ (List.getElem_mem _)
      have hlen : (t :: rest)[i].flatten.1.length = t.flatten.1.length := by
        rw [leaves_length, leaves_length, hi']
      rw [← C58_params_roundtrip (t :: rest)[i], hi']
      have : ((List.range t.flatten.1.length).map fun k => (t :: rest).map fun s => s.flatten.1.getD k d).map (fun xs => xs.getD i d)
          = (t :: rest)[i].flatten.1 := by
        refine List.ext_getElem (by simp [hlen]) fun k h1 h2 => ?_
        simp only [List.getElem_map, List.getElem_range]
        rw [List.getD_eq_getElem _ _ (by simpa using hi), List.getElem_map, List.getD_eq_getElem _ _ h2]
      rw [← this]
      simp only [TracedParams.unflatten, ← List.map_take, ← List.map_drop, takeGroups_map]
    · cases h

/-- Stacking works exactly for a non-empty list of parameters of one structure. -/
theorem C58_params_stack_ok (d : A) (t : TracedParams A) (rest : List (TracedParams A)) :
    (∃ s, TracedParams.stack d (t :: rest) = .ok s) ↔ ∀ u ∈ rest, u.flatten.2 = t.flatten.2 := by
  by_cases h : (rest.all fun s => s.flatten.2 == t.flatten.2) = true
  · simp only [TracedParams.stack, if_pos h]
    exact ⟨fun _ u hu => by simpa using List.all_eq_true.1 h u hu, fun _ => ⟨_, rfl⟩⟩
  · simp only [TracedParams.stack, if_neg h]
    constructor
    · rintro ⟨s, hs⟩; cases hs
    · intro hall; exact absurd (List.all_eq_true.2 fun u hu => by simpa using hall u hu) h

/-- The position a Python index denotes in a list of length `n`. -/
def pyPos (n : ℕ) (z : ℤ) : ℤ := if z < 0 then z + n else z

theorem pySetItem_ok {l r : List A} {z : ℤ} {v : A} (h : pySetItem l z v = .ok r) :
    0 ≤ pyPos l.length z ∧ pyPos l.length z < l.length ∧ r = l.set (pyPos l.length z).toNat v := by
  have h' : (if 0 ≤ pyPos l.length z ∧ pyPos l.length z < l.length then Except.ok (l.set (pyPos l.length z).toNat v)
      else Except.error PyErr.indexError) = Except.ok r := h
  split at h'
  · rename_i hc
    exact ⟨hc.1, hc.2, (Except.ok.inj h').symm⟩
  · cases h'

theorem pyGetItem_ok {l : List A} {z : ℤ} {a : A} (h : pyGetItem l z = .ok a) : l[(pyPos l.length z).toNat]? = some a := by
  have e : (if z < 0 then z + (l.length : ℤ) else z) = pyPos l.length z := rfl
  simp only [pyGetItem, e] at h
  split at h
  · rename_i b hb
    split at h
    · rw [← Except.ok.inj h]; exact hb
    · cases h
  · cases h

/-- **C58, replacement.** Replacing a volume variable changes that variable only and keeps the structure. -/
theorem C58_replace_volume (t t' : TracedParams A) (z : ℤ) (v : A) (h : t.replaceVolumeVar z v = .ok t') :
    t'.flatten.2 = t.flatten.2 ∧ t'.surfaceVars = t.surfaceVars ∧
      ∀ k : ℕ, k < t.volumeVars.length →
        t'.volumeVars[k]? = if (k : ℤ) = pyPos t.volumeVars.length z then some v else t.volumeVars[k]? := by
  simp only [TracedParams.replaceVolumeVar, bind, Except.bind, pure, Except.pure] at h
  split at h
  · cases h
  · rename_i vs hvs
    obtain ⟨h0, h1, rfl⟩ := pySetItem_ok hvs
    simp only [Except.ok.injEq] at h
    subst h
    refine ⟨by simp [TracedParams.flatten], rfl, fun k hk => ?_⟩
    simp only [List.getElem?_set]
    by_cases hkz : (k : ℤ) = pyPos t.volumeVars.length z
    · rw [if_pos (by omega), if_pos (by omega), if_pos hkz]
    · rw [if_neg (by omega), if_neg hkz]

/-- Replacing a surface variable changes that variable of that surface only and keeps the structure. -/
theorem C58_replace_surface (t t' : TracedParams A) (zs zv : ℤ) (v : A) (h : t.replaceSurfaceVar zs zv v = .ok t') :
    t'.flatten.2 = t.flatten.2 ∧ t'.volumeVars = t.volumeVars ∧
      ∀ s < t.surfaceVars.length, ∀ k < (t.surfaceVars.getD s []).length,
        (t'.surfaceVars.getD s [])[k]? =
          if (s : ℤ) = pyPos t.surfaceVars.length zs ∧ (k : ℤ) = pyPos (t.surfaceVars.getD s []).length zv then some v
          else (t.surfaceVars.getD s [])[k]? := by
  simp only [TracedParams.replaceSurfaceVar, bind, Except.bind, pure, Except.pure] at h
  split at h
  · cases h
  · rename_i tup htup
    split at h
    · cases h
    · rename_i tup' htup'
      split at h
      · cases h
      · rename_i ss hss
        obtain ⟨h0, h1, rfl⟩ := pySetItem_ok hss
        obtain ⟨g0, g1, rfl⟩ := pySetItem_ok htup'
        simp only [Except.ok.injEq] at h
        subst h
        have hget : t.surfaceVars[(pyPos t.surfaceVars.length zs).toNat]? = some tup := by
          exact pyGetItem_ok htup
        set P := pyPos t.surfaceVars.length zs with hP
        set Q := pyPos tup.length zv with hQ
        have hlt : P.toNat < t.surfaceVars.length := by omega
        have htupe : t.surfaceVars[P.toNat] = tup := by
          rw [List.getElem?_eq_getElem hlt] at hget; exact Option.some.inj hget
        refine ⟨?_, rfl, fun s hs k hk => ?_⟩
        · simp only [TracedParams.flatten, Prod.mk.injEq, true_and]
          rw [List.map_set, List.length_set]
          refine List.ext_getElem (by simp) fun j h1 h2 => ?_
          rw [List.getElem_set]
          split
          · rename_i hj; subst hj; simp [htupe]
          · rfl
        · rw [List.getD_eq_getElem _ _ (by simpa using hs), List.getElem_set]
          split
          · rename_i hj
            subst hj
            have e : t.surfaceVars.getD P.toNat [] = tup := by rw [List.getD_eq_getElem _ _ hlt, htupe]
            rw [e] at hk ⊢
            simp only [List.getElem?_set]
            by_cases hkz : (k : ℤ) = pyPos tup.length zv
            · rw [if_pos (by omega), if_pos (by omega), if_pos ⟨by omega, hkz⟩]
            · rw [if_neg (by omega), if_neg fun hc => hkz hc.2]
          · rename_i hj
            rw [if_neg fun hc => hj (by omega), List.getD_eq_getElem _ _ hs]

end params

/-- **C58, boundary conditions, matrices, solutions.** -/
theorem C58_bc_roundtrip {R : Type} (bc : DirichletBC R) : DirichletBC.unflatten bc.flatten.2 bc.flatten.1 = bc := rfl

theorem C58_csr_roundtrip {R : Type} (J : CSRMatrix R) : CSRMatrix.unflatten J.flatten.2 J.flatten.1 = J := rfl

theorem C58_solution_roundtrip {R : Type} (s : Solution R) : Solution.unflatten s.flatten.2 s.flatten.1 = s := rfl

/-- **C58, structure.** Every one of the arrays of a `TracedStructure` comes back in its place. -/
theorem C58_structure_roundtrip {A : Type} (t : TracedStructure A) : TracedStructure.unflatten t.flatten = .ok t := rfl

/-- Conversely: whatever unflattens was the flattened form of the result, so distinct leaves end up in distinct fields. -/
theorem C58_structure_leaves {A : Type} (xs : List (TsChild A)) (t : TracedStructure A)
    (h : TracedStructure.unflatten xs = .ok t) : t.flatten = xs := by
  unfold TracedStructure.unflatten at h
  split at h
  · simp only [Except.ok.injEq] at h; subst h; rfl
  · cases h

section problem
variable {M L I D V : Type}

theorem normView_idem {v w : MatrixView ⊕ String} (h : normView v = .ok w) : normView w = .ok w := by
  match v with
  | .inl v => simp only [normView, Except.ok.injEq] at h; rw [← h]; rfl
  | .inr s =>
    simp only [normView] at h
    split at h
    · simp only [Except.ok.injEq] at h; rw [← h]; rfl
    · cases h

theorem normalise_idem {a b : ProblemArgs M L I} (h : a.normalise = .ok b) : b.normalise = .ok b := by
  simp only [ProblemArgs.normalise, bind, Except.bind, pure, Except.pure] at h
  split at h
  · cases h
  · rename_i w hw
    have := normView_idem hw
    split at h
    · rename_i l hm
      simp only [Except.ok.injEq] at h
      subst h
      simp [ProblemArgs.normalise, bind, Except.bind, pure, Except.pure, this, hm]
    · rename_i m hm
      simp only [Except.ok.injEq] at h
      subst h
      simp [ProblemArgs.normalise, bind, Except.bind, pure, Except.pure, this]

/-- **C58, problems, the part that holds.** A problem as constructed comes back with the same fields and the same computed
state, whatever the subclass computes from the fields. Missing: what was assigned later, `C58_problem_later_lost`. -/
theorem C58_problem_roundtrip_partial (build : ProblemArgs M L I → Except PyErr D) (a : ProblemArgs M L I)
    (o : ProblemObj M L I D V) (h : constructProblem build a = .ok o) :
    ProblemObj.unflatten build o.flatten = .ok o := by
  simp only [constructProblem, bind, Except.bind, pure, Except.pure] at h
  split at h
  · cases h
  · rename_i n hn
    split at h
    · cases h
    · rename_i d hd
      simp only [Except.ok.injEq] at h
      subst h
      simp [ProblemObj.unflatten, ProblemObj.flatten, constructProblem, bind, Except.bind, pure, Except.pure,
        normalise_idem hn, hd]

/-- Attributes assigned to a problem after its construction are lost by the round trip. -/
theorem C58_problem_later_lost (build : ProblemArgs M L I → Except PyErr D) (a : ProblemArgs M L I)
    (o : ProblemObj M L I D V) (h : constructProblem build a = .ok o) (name : String) (v : V) :
    ProblemObj.unflatten build (o.setAttr name v).flatten = .ok o ∧ o ≠ o.setAttr name v := by
  refine ⟨C58_problem_roundtrip_partial build a o h, fun he => ?_⟩
  have := congrArg (fun p => p.later.length) he
  simp [ProblemObj.setAttr] at this

/-- A single mesh and a one-element list give the same problem. -/
theorem C58_problem_single_mesh (a b : ProblemArgs M L I) (m : M) (hm : a.mesh = .one m) (h : a.normalise = .ok b) :
    ({ a with mesh := .many [.one m], vec := .many [a.vec], eleType := .many [a.eleType],
              gaussOrder := .many [a.gaussOrder] } : ProblemArgs M L I).normalise = .ok b := by
  simp only [ProblemArgs.normalise, bind, Except.bind, pure, Except.pure] at h ⊢
  split at h
  · cases h
  · rename_i w hw
    rw [hm] at h
    exact h

end problem

/-! ## C77 -/

section coefficients
variable {K : Type} [Field K]

/-- The shape functions sum to one at every quadrature point. -/
def PartitionOfUnity (fe : FeInfo K) : Prop := ∀ r ∈ fe.shapeVals, r.sum = 1

theorem interpolant_const {p : VarProblem K} (hp : VarProblemOk p) {i : ℕ} (hi : i < p.fes.length)
    (hpu : PartitionOfUnity (p.fe i)) (f : ℕ → K) (x : K) (c q : ℕ) (hc : c < p.numCells) (hq : q < p.numQuads)
    (hf : ∀ n < (p.fe i).totalNodes, f n = x) : interpolant p i f c q = x := by
  obtain ⟨hql, hqr⟩ := hp.quads _ (fe_mem hi)
  obtain ⟨hcl, hcr⟩ := hp.cells _ (fe_mem hi)
  have hcm : (p.fe i).cells.getD c [] ∈ (p.fe i).cells := by
    rw [List.getD_eq_getElem _ _ (by omega)]; exact List.getElem_mem _
  have hqm : (p.fe i).shapeVals.getD q [] ∈ (p.fe i).shapeVals := by
    rw [List.getD_eq_getElem _ _ (by omega)]; exact List.getElem_mem _
  obtain ⟨h1, h2⟩ := hcr _ hcm
  have h3 := hqr _ hqm
  have h4 := hpu _ hqm
  unfold interpolant
  generalize (p.fe i).cells.getD c [] = cell at h1 h2 hcm
  generalize (p.fe i).shapeVals.getD q [] = row at h3 h4 hqm
  have : ((List.range (p.fe i).nodesPerElem).map fun a => row.getD a 0 * f (cell.getD a 0)) = row.map (· * x) := by
    refine List.ext_getElem (by simp [h3]) fun a g1 g2 => ?_
    have ha : a < row.length := by simpa using g2
    have hac : a < cell.length := by omega
    simp only [List.getElem_map, List.getElem_range]
    rw [List.getD_eq_getElem row _ ha, List.getD_eq_getElem cell _ hac, hf _ (h2 _ (List.getElem_mem _))]
  rw [this, List.sum_map_mul_right, List.map_id', h4, one_mul]

/-- **C77, uniform parameters, the part that holds.** A uniform value created per node, per cell or per quadrature point is
the value at every quadrature point of every cell, provided no mesh has as many nodes as cells. -/
theorem C77_uniform_partial (p : VarProblem K) (hp : VarProblemOk p) (own i : ℕ) (hi : i < p.fes.length)
    (hpu : PartitionOfUnity (p.fe i)) (hu : Unambiguous p (.node i)) (x : K) (c q : ℕ) (hc : c < p.numCells)
    (hq : q < p.numQuads) (v : NdArr K)
    (hv : createNodeVar p x i = .ok v ∨ createCellVar p x = v ∨ createUniformVolumeVar p x i = .ok v) :
    assemblyValue p own v c q = .ok (.sc x) := by
  have hget : p.fes[i]? = some (p.fe i) := by
    rw [List.getElem?_eq_getElem hi]; unfold VarProblem.fe; rw [List.getD_eq_getElem _ _ hi]
  rcases hv with hv | rfl | hv
  · simp only [createNodeVar, hget, Except.ok.injEq] at hv
    subst hv
    have hl : HasLayout p (.node i) (.vec (List.replicate (p.fe i).totalNodes x)) := ⟨hi, by simp⟩
    rw [C56_assembly_partial p hp own (.node i) _ hl hu c q hc hq]
    simp only [intended]
    rw [interpolant_const hp hi hpu _ x c q hc hq]
    intro n hn
    simp only [nodalEntry]
    rw [List.getD_eq_getElem _ _ (by simpa using hn)]
    simp
  · rw [C56_assembly_partial p hp own .cell (createCellVar p x) (by simp [HasLayout, createCellVar]) ⟨hu.1, trivial⟩ c q hc hq]
    simp only [intended, nodalEntry, createCellVar]
    rw [List.getD_eq_getElem _ _ (by simpa using hc)]
    simp
  · simp only [createUniformVolumeVar, hget, Except.ok.injEq] at hv
    subst hv
    have hql := (hp.quads _ (fe_mem hi)).1
    have hl : HasLayout p .quad (.mat (List.replicate p.numCells (List.replicate (p.fe i).shapeVals.length x))) :=
      ⟨by simp, by intro r hr; rw [List.eq_of_mem_replicate hr]; simp [hql]⟩
    rw [C56_assembly_partial p hp own .quad _ hl ⟨hu.1, trivial⟩ c q hc hq]
    simp only [intended, nodalEntry]
    rw [List.getD_eq_getElem (List.replicate p.numCells _) _ (by simpa using hc), List.getElem_replicate,
      List.getD_eq_getElem _ _ (by simpa [hql] using hq)]
    simp

/-- **C77, solved coefficients.** A single-field `Solution` used as a coefficient becomes an array with the layout of that
field whose entry for component `k` of node `n` is the degree of freedom `n * vec + k`. -/
theorem C77_solution_array (p : VarProblem K) (i : ℕ) (hi : i < p.fes.length) (vec : ℕ) (dofs : List K)
    (hd : dofs.length = (p.fe i).totalNodes * vec) :
    ∃ v, coerceVolumeVar (.sol ⟨dofs, [((p.fe i).totalNodes, vec)]⟩) = .ok v ∧
      HasLayout p (if vec = 1 then .node i else .nodeVector i vec) v ∧
      ∀ n < (p.fe i).totalNodes, ∀ k < vec, nodalEntry v n k = dofs.getD (n * vec + k) 0 := by
  have hfield : (⟨dofs, [((p.fe i).totalNodes, vec)]⟩ : Solution K).field (.int 0)
      = .ok (reshapeRows (p.fe i).totalNodes vec dofs) := by
    have : dofs.take ((p.fe i).totalNodes * vec) = dofs := List.take_of_length_le (by omega)
    simp [Solution.field, Solution.offset, this]
  have hrow : ∀ n < (p.fe i).totalNodes, ∀ k < vec,
      ((reshapeRows (p.fe i).totalNodes vec dofs).getD n []).getD k 0 = dofs.getD (n * vec + k) 0 := by
    intro n hn k hk
    rw [reshapeRows_getD _ _ _ _ hn]
    have hlt : n * vec + k < dofs.length := by
      rw [hd]; nlinarith
    have h1 : k < ((dofs.drop (n * vec)).take vec).length := by
      rw [List.length_take, List.length_drop]; omega
    rw [List.getD_eq_getElem _ _ h1, List.getD_eq_getElem _ _ hlt, List.getElem_take, List.getElem_drop]
  refine ⟨if vec = 1 then .vec ((reshapeRows (p.fe i).totalNodes vec dofs).map fun r => r.getD 0 0)
    else .mat (reshapeRows (p.fe i).totalNodes vec dofs), ?_, ?_, ?_⟩
  · simp [coerceVolumeVar, hfield, bind, Except.bind, pure, Except.pure]
  · split
    · exact ⟨hi, by simp⟩
    · exact ⟨hi, by simp, fun r hr => reshapeRows_mem_length _ _ _ hd r hr⟩
  · intro n hn k hk
    split
    · rename_i h1
      obtain rfl : k = 0 := by omega
      rw [← hrow n hn 0 hk]
      simp only [nodalEntry]
      have hlen : n < (reshapeRows (p.fe i).totalNodes vec dofs).length := by simpa using hn
      rw [List.getD_eq_getElem _ _ (by simpa using hn), List.getElem_map, List.getD_eq_getElem _ _ hlen]
    · exact hrow n hn k hk

/-- **C77, solved coefficients, the part that holds.** The constitutive function of the next problem sees the interpolated
field of the previous solution: for a scalar field `∑ₐ Nₐ u(node a)`, for a vector field componentwise. -/
theorem C77_solution_value_partial (p : VarProblem K) (hp : VarProblemOk p) (own i : ℕ) (hi : i < p.fes.length)
    (hu : Unambiguous p (.node i)) (vec : ℕ) (hvec : 0 < vec) (dofs : List K) (hd : dofs.length = (p.fe i).totalNodes * vec)
    (c q : ℕ) (hc : c < p.numCells) (hq : q < p.numQuads) (v : NdArr K)
    (hv : coerceVolumeVar (.sol ⟨dofs, [((p.fe i).totalNodes, vec)]⟩) = .ok v) :
    assemblyValue p own v c q = .ok (if vec = 1 then .sc (interpolant p i (fun n => dofs.getD n 0) c q)
      else .vec ((List.range vec).map fun k => interpolant p i (fun n => dofs.getD (n * vec + k) 0) c q)) := by
  obtain ⟨w, hw, hl, he⟩ := C77_solution_array p i hi vec dofs hd
  obtain rfl : w = v := Except.ok.inj (hw.symm.trans hv)
  have hcong : ∀ f g : ℕ → K, (∀ n < (p.fe i).totalNodes, f n = g n) → interpolant p i f c q = interpolant p i g c q := by
    intro f g hfg
    obtain ⟨hcl, hcr⟩ := hp.cells _ (fe_mem hi)
    have hcm : (p.fe i).cells.getD c [] ∈ (p.fe i).cells := by
      rw [List.getD_eq_getElem _ _ (by omega)]; exact List.getElem_mem _
    obtain ⟨h1, h2⟩ := hcr _ hcm
    unfold interpolant
    generalize (p.fe i).cells.getD c [] = cell at h1 h2 hcm
    congr 1
    apply List.map_congr_left
    intro a ha
    rw [List.mem_range] at ha
    rw [hfg]
    rw [List.getD_eq_getElem cell _ (by omega)]
    exact h2 _ (List.getElem_mem _)
  by_cases h1 : vec = 1
  · subst h1
    rw [C56_assembly_partial p hp own _ w hl (by simpa using hu) c q hc hq]
    simp only [if_true, intended]
    rw [hcong _ (fun n => dofs.getD n 0)]
    intro n hn
    simpa using he n hn 0 (by omega)
  · rw [if_neg h1] at hl ⊢
    rw [C56_assembly_partial p hp own _ w hl hu c q hc hq]
    simp only [intended]
    congr 2
    apply List.map_congr_left
    intro k hk
    rw [List.mem_range] at hk
    exact hcong _ _ fun n hn => he n hn k hk

/-- A `Solution` with several fields is refused. -/
theorem C77_ambiguous_solution (s : Solution K) (h : s.layout.length ≠ 1) : coerceVolumeVar (.sol s) = .error .valueError := by
  simp [coerceVolumeVar, h]

/-- With as many nodes as cells not even a uniform value survives: the constitutive function receives an array. -/
theorem C77_uniform_violated : createNodeVar exSquare 8 0 = .ok (.vec [8, 8, 8]) ∧
    assemblyValue exSquare 0 (.vec [8, 8, 8]) 0 0 = .ok (.vec [4, 2, 2]) := by
  constructor <;> decide +kernel

end coefficients

/-! ## Examples -/

example : TracedParams.stack 0 [⟨[1, 2], [[], [3]]⟩, ⟨[4, 5], [[], [6]]⟩] = .ok ⟨[[1, 4], [2, 5]], [[], [[3, 6]]]⟩ := by decide

example : (⟨[1, 2], [[], [3, 4]]⟩ : TracedParams ℕ).replaceSurfaceVar (-1) 0 9 = .ok ⟨[1, 2], [[], [9, 4]]⟩ := by decide

example : ∃ o : ProblemObj Unit Unit Unit ℕ ℕ, constructProblem (fun a => .ok a.dim)
    ⟨.one (), .one 3, 3, .one "HEX8", .one none, none, .inl .upper, [], false⟩ = .ok o :=
  ⟨⟨⟨.many [.one ()], .many [.one 3], 3, .many [.one "HEX8"], .many [.one none], none, .inl .upper, [], false⟩, 3, []⟩, rfl⟩

example : assemblyValue exTwoFields 0 (.vec [7, 7, 7]) 1 1 = .ok (.sc 7) :=
  C77_uniform_partial exTwoFields exTwoFields_ok 0 1 (by decide) (by unfold PartitionOfUnity; decide +kernel)
    ⟨by decide, by decide⟩ 7 1 1 (by decide) (by decide) _ (.inl (by decide +kernel))

example : coerceVolumeVar (.sol (⟨[1, 2, 3, 4, 5, 6], [((exTwoFields.fe 1).totalNodes, 2)]⟩ : Solution ℚ))
    = .ok (.mat [[1, 2], [3, 4], [5, 6]]) := by decide +kernel

end Verif.Props
