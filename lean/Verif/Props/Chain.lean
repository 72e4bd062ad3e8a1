import Verif.Model.Chain
import Verif.Props.Layout
import Verif.Props.Sparse
import Verif.Props.Fit
import Mathlib.Tactic.FieldSimp
import Mathlib.Tactic.Positivity
import Mathlib.Tactic.NormNum

/-!
# Bridges between solves (C147) and the cells of a mesh in a grid (C148)
-/

namespace Verif.Props
open Verif.Model

variable {α : Type*}

/-! ## C147 -/

/-- C147 (partial): for every layout, every solution of its length and every variable counted from the front, `node_var_from_solution`
gives what `Solution.node_var` gives, from the vector or from a `Solution`. Missing: negative variable indices
(`C147_negative_index_accepted`) and vectors of another length (`C147_wrong_length`). -/
theorem C147_same_bridge_partial [Inhabited α] (vars : List Var) (flat : List α) (hl : flat.length = numDofs vars) (component : Option ℤ)
    (i : ℕ) (hi : i < vars.length) (sol : SolArg α) (hs : sol = .flat flat ∨ sol = .solution (Solution.fromProblem vars flat)) :
    nodeVarFromSolution vars sol component (.int i) = (Solution.fromProblem vars flat).nodeVar component (.int i) := by
  have hd : sol.dofs = flat := by rcases hs with rfl | rfl <;> rfl
  unfold nodeVarFromSolution Solution.nodeVar
  rw [hd, if_neg (by simpa using hl), C09_field_eq_unflatten vars flat i hi, offset_fromProblem vars flat i hi]
  have hp : pyListIndex vars.length (.int i) = .ok i := by
    unfold pyListIndex
    simp only
    rw [if_pos ⟨by omega, by exact_mod_cast hi⟩, Int.toNat_natCast]
  rw [hp]
  rfl

/-- C147: component `comp` of variable `i` is that component at every node, in the order of the nodes. -/
theorem C147_component [Inhabited α] (vars : List Var) (flat : List α) (hl : flat.length = numDofs vars) (i : ℕ) (hi : i < vars.length)
    (comp : ℕ) (hc : comp < (vars.getD i ⟨0, 0, 0, []⟩).vec) :
    nodeVarFromSolution vars (.flat flat) (some comp) (.int i) = .ok ((List.range (vars.getD i ⟨0, 0, 0, []⟩).numNodes).map fun node =>
      flat.getD (Spec.dofNumber (fields vars) i node comp) default) := by
  rw [C147_same_bridge_partial vars flat hl _ i hi _ (Or.inl rfl)]
  exact C09_node_var_component vars flat hl i hi comp hc

/-- C147: a missing component of a vector field, a variable that does not exist and a vector of another length are refused. -/
theorem C147_refused [Inhabited α] (vars : List Var) (sol : SolArg α) (component : Option ℤ) :
    (sol.dofs.length ≠ numDofs vars → ∀ v, nodeVarFromSolution vars sol component v = .error .typeError) ∧
    (∀ z : ℤ, (z < -(vars.length : ℤ) ∨ (vars.length : ℤ) ≤ z) → ∃ e, nodeVarFromSolution vars sol component (.int z) = .error e) ∧
    ∀ i < vars.length, (vars.getD i ⟨0, 0, 0, []⟩).vec ≠ 1 → ∃ e, nodeVarFromSolution vars sol none (.int i) = .error e := by
  refine ⟨fun h v => by unfold nodeVarFromSolution; rw [if_pos h], fun z hz => ?_, fun i hi hv => ?_⟩
  · unfold nodeVarFromSolution
    split_ifs
    · exact ⟨_, rfl⟩
    · have hp : pyListIndex vars.length (.int z) = .error .indexError := by
        unfold pyListIndex
        simp only
        rw [if_neg (by omega), if_neg (by omega)]
      rw [hp]
      exact ⟨_, rfl⟩
  · unfold nodeVarFromSolution
    split_ifs
    · exact ⟨_, rfl⟩
    · have hp : pyListIndex vars.length (.int i) = .ok i := by
        unfold pyListIndex
        simp only
        rw [if_pos ⟨by omega, by exact_mod_cast hi⟩, Int.toNat_natCast]
      rw [hp]
      simp only [if_neg hv]
      exact ⟨_, rfl⟩

/-- C147: the two bridges differ for a negative variable index: one counts from the end, the other raises. -/
theorem C147_negative_index_accepted [Inhabited α] (vars : List Var) (flat : List α) (comp : ℕ)
    (h0 : vars ≠ []) :
    nodeVarFromSolution vars (.flat flat) (some comp) (.int (-1)) =
        nodeVarFromSolution vars (.flat flat) (some comp) (.int ((vars.length - 1 : ℕ) : ℤ)) ∧
      (Solution.fromProblem vars flat).nodeVar (some comp) (.int (-1)) = .error .indexError := by
  have hn : 0 < vars.length := List.length_pos_of_ne_nil h0
  constructor
  · unfold nodeVarFromSolution
    have h1 : pyListIndex vars.length (.int (-1)) = .ok (vars.length - 1) := by
      unfold pyListIndex
      simp only
      rw [if_neg (by omega), if_pos (by omega)]
      congr 1
      omega
    have h2 : pyListIndex vars.length (.int ((vars.length - 1 : ℕ) : ℤ)) = .ok (vars.length - 1) := by
      unfold pyListIndex
      simp only
      rw [if_pos (by omega), Int.toNat_natCast]
    rw [h1, h2]
  · exact ((C09_errors (Solution.fromProblem vars flat) (some comp)).2.2.1 (-1) (Or.inl (by norm_num))).2

/-- C147: the two bridges differ for a vector of another length: one refuses it, the other reads what is there. -/
theorem C147_wrong_length : ∃ (vars : List Var) (flat : List ℕ),
    nodeVarFromSolution vars (.flat flat) none (.int 0) = .error .typeError ∧
      (Solution.fromProblem vars flat).nodeVar none (.int 0) = .ok [7, 8] :=
  ⟨[⟨1, 2, 2, [[0, 1]]⟩], [7, 8, 9], rfl, rfl⟩

/-- Temperature and displacement of three nodes. -/
example : nodeVarFromSolution [⟨1, 3, 3, [[0, 1, 2]]⟩, ⟨2, 3, 3, [[0, 1, 2]]⟩] (.flat [1, 2, 3, 10, 20, 11, 21, 12, 22]) (some 1) (.int 1)
    = .ok [20, 21, 22] := rfl

/-- C147: values written into the design store with `updated`, as an array or as the parameters `traced_params` made, are what
`traced_params` then gathers on the same cells; every other cell keeps its value; and writing back what was gathered from stored cells
changes nothing. -/
theorem C147_design_round_trip (d : α) (hist : List (List ℕ × List α)) (hh : ∀ u ∈ hist, GoodUpdate u) (s : SparseDesign α)
    (hs : designAfter d hist = .ok s) (active : List ℕ) (values : List α) (hg : GoodUpdate (active, values)) (extra : List (List α))
    (arg : DesignArg α) (ha : arg = .array values ∨ arg = .params (values :: extra)) :
    ∃ s', s.updated d active arg = .ok s' ∧
      (∀ dft ex, s'.tracedParams active dft ex = values :: ex) ∧
      (∀ (q : ℕ) (dft : α), q < 2 ^ 31 → q ∉ active → s'.lookup q dft = s.lookup q dft) ∧
      (∀ dft : α, (∀ q ∈ active, lastAssigned hist q ≠ none) → s.tracedParams active dft extra = values :: extra →
        ∀ (q : ℕ) (dft' : α), q < 2 ^ 31 → s'.lookup q dft' = s.lookup q dft') := by
  obtain ⟨s0, e0, h0⟩ := design_represents d hist hh
  rw [hs] at e0
  cases e0
  obtain ⟨s', e', h'⟩ := update_represents d s _ h0 (active, values) hg
  obtain ⟨hnd, hlt, hlen⟩ := hg
  simp only at hnd hlt hlen
  have hlist : ∀ k (hk : k < active.length), listedBy (active, values) active[k] = some (values[k]'(by rw [hlen]; exact hk)) := by
    intro k hk
    unfold listedBy
    rw [lookup_mem_zip hnd, List.mem_iff_getElem]
    exact ⟨k, by simp [hlen, hk], by simp⟩
  have hnot : ∀ q, q ∉ active → listedBy (active, values) q = none := by
    intro q hq
    cases hv : listedBy (active, values) q with
    | none => rfl
    | some v =>
      unfold listedBy at hv
      rw [lookup_mem_zip hnd] at hv
      exact absurd (List.of_mem_zip hv).1 hq
  have look : ∀ (s : SparseDesign α) (f : ℕ → Option α), Represents s f → ∀ (q : ℕ) (dft : α), q < 2 ^ 31 → s.lookup q dft = (f q).getD dft := by
    intro s f hf q dft hq
    rw [lookup_of_represents s f hf q (by omega) (by exact_mod_cast hq), if_neg (by omega), Int.toNat_natCast]
  refine ⟨s', by rcases ha with rfl | rfl <;> exact e', fun dft ex => ?_, fun q dft hq hn => ?_, fun dft hst hgath q dft' hq => ?_⟩
  · unfold SparseDesign.tracedParams
    congr 1
    refine List.ext_getElem (by rw [List.length_map, hlen]) fun k h1 h2 => ?_
    rw [List.length_map] at h1
    rw [List.getElem_map, look s' _ h' _ _ (hlt _ (List.getElem_mem h1)), hlist k h1]
    rfl
  · rw [look s' _ h' q dft hq, look s _ h0 q dft hq, hnot q hn]
    rfl
  · rw [look s' _ h' q dft' hq, look s _ h0 q dft' hq]
    by_cases hm : q ∈ active
    · obtain ⟨k, hk, rfl⟩ := List.mem_iff_getElem.mp hm
      rw [hlist k hk]
      simp only [SparseDesign.tracedParams, List.cons.injEq, and_true] at hgath
      have hv : s.lookup (active[k] : ℕ) dft = values[k]'(by rw [hlen]; exact hk) := by
        have := congrArg (fun l => l[k]?) hgath
        simp only [List.getElem?_map, List.getElem?_eq_getElem hk, Option.map_some, List.getElem?_eq_getElem (show k < values.length by rw [hlen]; exact hk),
          Option.some.injEq] at this
        exact this
      rw [look s _ h0 _ _ hq] at hv
      cases hx : lastAssigned hist active[k] with
      | none => exact absurd hx (hst _ hm)
      | some x =>
        rw [hx] at hv
        simp only [Option.getD_some] at hv
        simp [hv]
    · rw [hnot q hm]
      rfl

example : ∃ s, designAfter (0 : ℚ) [([5, 2, 9], [1, 2, 3])] = .ok s ∧ GoodUpdate ([2, 9], [7, (8 : ℚ)]) := by
  obtain ⟨s, hs, _⟩ := design_represents (0 : ℚ) [([5, 2, 9], [1, 2, 3])] (by
    intro u hu
    rw [List.mem_singleton.mp hu]
    exact ⟨by decide, by decide, rfl⟩)
  exact ⟨s, hs, by decide, by decide, rfl⟩

/-! ## C148 -/

section Voxel
variable {K : Type*} [Field K] [LinearOrder K] [IsStrictOrderedRing K] [FloorRing K]

namespace Spec

/-- `p` lies in grid cell `(i, j, k)`. -/
def InCell (sp org : K × K × K) (i j k : ℕ) (p : K × K × K) : Prop :=
  (org.1 + i * sp.1 ≤ p.1 ∧ p.1 < org.1 + (i + 1) * sp.1) ∧
  (org.2.1 + j * sp.2.1 ≤ p.2.1 ∧ p.2.1 < org.2.1 + (j + 1) * sp.2.1) ∧
  (org.2.2 + k * sp.2.2 ≤ p.2.2 ∧ p.2.2 < org.2.2 + (k + 1) * sp.2.2)

/-- `p` is a mean of the points `ps` with weights that are not negative and sum to one. -/
def MeanOf (ps : List (K × K × K)) (p : K × K × K) : Prop :=
  ∃ w : List K, w.length = ps.length ∧ (∀ x ∈ w, 0 ≤ x) ∧ w.sum = 1 ∧
    p = ((List.zipWith (fun x q => x * q.1) w ps).sum, (List.zipWith (fun x q => x * q.2.1) w ps).sum, (List.zipWith (fun x q => x * q.2.2) w ps).sum)

/-- The corners of a cell of a mesh. -/
def corners (points : List (K × K × K)) (c : List ℕ) : List (K × K × K) := c.map fun n => points.getD n (0, 0, 0)

end Spec

omit [LinearOrder K] [IsStrictOrderedRing K] [FloorRing K] in
theorem zipWith_const (a : K) (f : K × K × K → K) : ∀ ps : List (K × K × K),
    (List.zipWith (fun x q => x * f q) (ps.map fun _ => a) ps).sum = a * (ps.map f).sum
  | [] => by simp
  | p :: ps => by
    simp only [List.map_cons, List.zipWith_cons_cons, List.sum_cons, zipWith_const a f ps]
    ring

omit [LinearOrder K] [IsStrictOrderedRing K] [FloorRing K] in
theorem sum_const (a : K) : ∀ ps : List (K × K × K), (ps.map fun _ => a).sum = ps.length * a
  | [] => by simp
  | p :: ps => by
    simp only [List.map_cons, List.sum_cons, sum_const a ps, List.length_cons]
    push_cast
    ring

theorem meanOf_cellMean {ps : List (K × K × K)} (h : ps ≠ []) : Spec.MeanOf ps (cellMean ps) := by
  have hn : (0 : K) < ps.length := by exact_mod_cast List.length_pos_of_ne_nil h
  refine ⟨ps.map fun _ => 1 / (ps.length : K), by simp, ?_, ?_, ?_⟩
  · intro x hx
    obtain ⟨_, _, rfl⟩ := List.mem_map.mp hx
    positivity
  · rw [sum_const, mul_one_div_cancel hn.ne']
  · rw [zipWith_const _ fun q => q.1, zipWith_const _ fun q => q.2.1, zipWith_const _ fun q => q.2.2]
    unfold cellMean
    simp only [one_div_mul_eq_div]

theorem meanOf_between {ps : List (K × K × K)} {p c : K × K × K} {f : K} (h0 : 0 ≤ f) (h1 : f ≤ 1) (hp : Spec.MeanOf ps p)
    (hc : Spec.MeanOf ps c) : Spec.MeanOf ps (mixPoint f p c) := by
  obtain ⟨u, u1, u2, u3, u4⟩ := hp
  obtain ⟨v, v1, v2, v3, v4⟩ := hc
  have key : ∀ (g : K × K × K → K) (ps : List (K × K × K)) (u v : List K), u.length = ps.length → v.length = ps.length →
      (List.zipWith (fun x q => x * g q) (List.zipWith (fun x y => f * x + (1 - f) * y) u v) ps).sum =
        f * (List.zipWith (fun x q => x * g q) u ps).sum + (1 - f) * (List.zipWith (fun x q => x * g q) v ps).sum := by
    intro g ps
    induction ps with
    | nil => intro u v hu hv; simp
    | cons q ps ih =>
      intro u v hu hv
      match u, v, hu, hv with
      | x :: u, y :: v, hu, hv =>
        simp only [List.zipWith_cons_cons, List.sum_cons, ih u v (by simpa using hu) (by simpa using hv)]
        ring
  have ksum : ∀ (u v : List K), u.length = v.length → (List.zipWith (fun x y => f * x + (1 - f) * y) u v).sum = f * u.sum + (1 - f) * v.sum := by
    intro u
    induction u with
    | nil => intro v hv; rw [List.eq_nil_of_length_eq_zero hv.symm]; simp
    | cons x u ih =>
      intro v hv
      match v, hv with
      | y :: v, hv =>
        simp only [List.zipWith_cons_cons, List.sum_cons, ih v (by simpa using hv)]
        ring
  refine ⟨List.zipWith (fun x y => f * x + (1 - f) * y) u v, by simp [u1, v1], ?_, ?_, ?_⟩
  · intro x hx
    obtain ⟨a, b, ha, hb, rfl⟩ : ∃ a b, a ∈ u ∧ b ∈ v ∧ f * a + (1 - f) * b = x := by
      obtain ⟨k, hk, rfl⟩ := List.mem_iff_getElem.mp hx
      rw [List.length_zipWith] at hk
      rw [List.getElem_zipWith]
      exact ⟨_, _, List.getElem_mem _, List.getElem_mem _, rfl⟩
    exact add_nonneg (mul_nonneg h0 (u2 a ha)) (mul_nonneg (sub_nonneg.mpr h1) (v2 b hb))
  · rw [ksum u v (u1.trans v1.symm), u3, v3]
    ring
  · rw [key (fun q => q.1) ps u v u1 v1, key (fun q => q.2.1) ps u v u1 v1, key (fun q => q.2.2) ps u v u1 v1]
    simp only [mixPoint, u4, v4]

theorem meanOf_mem {ps : List (K × K × K)} {p : K × K × K} (h : p ∈ ps) : Spec.MeanOf ps p := by
  induction ps with
  | nil => cases h
  | cons q ps ih =>
    have zero : ∀ (g : K × K × K → K) (ps : List (K × K × K)), (List.zipWith (fun x q => x * g q) (ps.map fun _ => (0 : K)) ps).sum = 0 := by
      intro g ps
      rw [zipWith_const, zero_mul]
    rcases List.mem_cons.mp h with rfl | h
    · refine ⟨1 :: ps.map fun _ => 0, by simp, ?_, ?_, ?_⟩
      · intro x hx
        rcases List.mem_cons.mp hx with rfl | hx
        · exact zero_le_one
        · obtain ⟨_, _, rfl⟩ := List.mem_map.mp hx; exact le_rfl
      · simp
      · simp only [List.zipWith_cons_cons, List.sum_cons, zero (fun q => q.1), zero (fun q => q.2.1), zero (fun q => q.2.2)]
        simp
    · obtain ⟨w, w1, w2, w3, w4⟩ := ih h
      refine ⟨0 :: w, by simp [w1], ?_, by simp [w3], ?_⟩
      · intro x hx
        rcases List.mem_cons.mp hx with rfl | hx
        · exact le_rfl
        · exact w2 x hx
      · rw [w4]; simp

theorem subFractions_mem {n : ℤ} {f : K} (h : f ∈ (subFractions n : List K)) : 1 / 4 ≤ f ∧ f ≤ 3 / 4 := by
  unfold subFractions at h
  obtain ⟨i, hi, rfl⟩ := List.mem_map.mp h
  have hi := List.mem_range.mp hi
  rcases Nat.lt_or_ge 1 n.toNat with h1 | h1
  · have hn : (0 : K) < (n.toNat : K) - 1 := by
      have : (1 : K) < n.toNat := by exact_mod_cast h1
      linarith
    have hi' : (i : K) ≤ (n.toNat : K) - 1 := by
      have : (i : K) + 1 ≤ n.toNat := by exact_mod_cast hi
      linarith
    have h2 : (i : K) * ((1 / 2) / ((n.toNat : K) - 1)) ≤ 1 / 2 := by
      rw [← mul_div_assoc, div_le_iff₀ hn]
      linarith
    have h3 : (0 : K) ≤ (i : K) * ((1 / 2) / ((n.toNat : K) - 1)) := by positivity
    constructor <;> linarith
  · have : i = 0 := by omega
    subst this
    simp only [Nat.cast_zero, zero_mul, add_zero]
    norm_num

/-- C148 (partial): every cell `voxelize_mesh` returns contains a point of the mesh: a node, or a point among the corners of one of the
mesh's cells. The cells of the nodes and of the centres of the mesh's cells are returned. Missing: all cells the mesh occupies, which fails
however many `subsamples` are asked for (`C148_occupied_cell_missed`). -/
theorem C148_occupied_partial (g : Grid) (sp org : K × K × K) (points : List (K × K × K)) (cells : List (List ℕ)) (subsamples : ℤ)
    (hc : ∀ c ∈ cells, c ≠ []) (hs1 : 0 < sp.1) (hs2 : 0 < sp.2.1) (hs3 : 0 < sp.2.2) (i j k : ℕ) (hi : i < g.nx) (hj : j < g.ny)
    (hk : k < g.nz) :
    (g.cellId (i, j, k) ∈ voxelizeMesh g sp org points cells subsamples → ∃ p, Spec.InCell sp org i j k p ∧
      (p ∈ points ∨ ∃ c ∈ cells, Spec.MeanOf (Spec.corners points c) p)) ∧
    (∀ p ∈ points, Spec.InCell sp org i j k p → g.cellId (i, j, k) ∈ voxelizeMesh g sp org points cells subsamples) ∧
    ∀ c ∈ cells, Spec.InCell sp org i j k (cellMean (Spec.corners points c)) → g.cellId (i, j, k) ∈ voxelizeMesh g sp org points cells subsamples := by
  have hv := (C36_voxelize g sp org (meshSamples points cells subsamples) hs1 hs2 hs3).2 i j k hi hj hk
  unfold voxelizeMesh
  rw [hv]
  refine ⟨?_, ?_, ?_⟩
  · rintro ⟨p, hp, hin⟩
    refine ⟨p, hin, ?_⟩
    unfold meshSamples at hp
    simp only [List.mem_append] at hp
    rcases hp with (hp | hp) | hp
    · exact Or.inl hp
    · obtain ⟨c, hcm, rfl⟩ := List.mem_map.mp hp
      exact Or.inr ⟨c, hcm, meanOf_cellMean (by simpa [Spec.corners] using hc c hcm)⟩
    · obtain ⟨f, hf, hp⟩ := List.mem_flatMap.mp hp
      obtain ⟨c, hcm, hp⟩ := List.mem_flatMap.mp hp
      obtain ⟨q, hq, rfl⟩ := List.mem_map.mp hp
      obtain ⟨f0, f1⟩ := subFractions_mem hf
      exact Or.inr ⟨c, hcm, meanOf_between (by linarith) (by linarith) (meanOf_mem hq) (meanOf_cellMean (by simpa [Spec.corners] using hc c hcm))⟩
  · intro p hp hin
    exact ⟨p, by unfold meshSamples; simp [hp], hin⟩
  · intro c hcm hin
    refine ⟨_, ?_, hin⟩
    unfold meshSamples
    simp only [List.mem_append, List.mem_map]
    exact Or.inl (Or.inr ⟨c, hcm, rfl⟩)

end Voxel

/-- C148 fails: a grid cell that lies inside a tetrahedron is not returned, however many subsamples are asked for, because the samples
lie on the lines from the centre to the corners. -/
theorem C148_occupied_cell_missed : ∃ (g : Grid) (sp org : ℚ × ℚ × ℚ) (points : List (ℚ × ℚ × ℚ)) (i j k : ℕ), i < g.nx ∧ j < g.ny ∧ k < g.nz ∧
    (∀ p, Spec.InCell sp org i j k p → Spec.MeanOf (Spec.corners points [0, 1, 2, 3]) p) ∧
    ∀ subsamples : ℤ, g.cellId (i, j, k) ∉ voxelizeMesh g sp org points [[0, 1, 2, 3]] subsamples := by
  refine ⟨⟨16, 16, 16⟩, (1 / 2, 1 / 2, 1 / 2), (0, 0, 0), [(0, 0, 0), (8, 0, 0), (0, 8, 0), (0, 0, 8)], 6, 6, 0, by norm_num, by norm_num, by norm_num,
    ?_, ?_⟩
  · rintro ⟨x, y, z⟩ ⟨⟨a1, a2⟩, ⟨b1, b2⟩, c1, c2⟩
    simp only at a1 a2 b1 b2 c1 c2
    norm_num at a1 a2 b1 b2 c1 c2
    refine ⟨[1 - (x + y + z) / 8, x / 8, y / 8, z / 8], rfl, ?_, ?_, ?_⟩
    · simp only [List.mem_cons, List.not_mem_nil, or_false]
      rintro w (rfl | rfl | rfl | rfl) <;> linarith
    · simp only [List.sum_cons, List.sum_nil]
      ring
    · simp [Spec.corners]
  · intro n
    unfold voxelizeMesh
    rw [(C36_voxelize ⟨16, 16, 16⟩ ((1 / 2, 1 / 2, 1 / 2) : ℚ × ℚ × ℚ) (0, 0, 0) _ (by norm_num) (by norm_num) (by norm_num)).2 6 6 0
      (by norm_num) (by norm_num) (by norm_num)]
    rintro ⟨p, hp, ⟨a1, a2⟩, ⟨b1, b2⟩, c1, c2⟩
    simp only at a1 a2 b1 b2 c1 c2
    norm_num at a1 a2 b1 b2 c1 c2
    unfold meshSamples at hp
    simp only [List.mem_append] at hp
    rcases hp with (hp | hp) | hp
    · simp only [List.mem_cons, List.not_mem_nil, or_false] at hp
      rcases hp with rfl | rfl | rfl | rfl <;> simp only at a1 a2 b1 b2 <;> linarith
    · simp only [List.map_cons, List.map_nil, List.mem_cons, List.not_mem_nil, or_false] at hp
      subst hp
      norm_num [cellMean] at a1
    · obtain ⟨f, hf, hp⟩ := List.mem_flatMap.mp hp
      obtain ⟨f0, f1⟩ := subFractions_mem hf
      simp only [List.flatMap_cons, List.flatMap_nil, List.append_nil, List.map_cons, List.map_nil, List.mem_cons, List.not_mem_nil, or_false] at hp
      rcases hp with rfl | rfl | rfl | rfl <;> simp [mixPoint, cellMean] at a1 a2 b1 b2 <;> linarith

/-- The centre of that tetrahedron, in the cell `(4, 4, 4)` of half a unit. -/
example : (⟨16, 16, 16⟩ : Grid).cellId (4, 4, 4) ∈
    voxelizeMesh ⟨16, 16, 16⟩ ((1 / 2, 1 / 2, 1 / 2) : ℚ × ℚ × ℚ) (0, 0, 0) [(0, 0, 0), (8, 0, 0), (0, 8, 0), (0, 0, 8)] [[0, 1, 2, 3]] 2 := by
  refine (C148_occupied_partial ⟨16, 16, 16⟩ ((1 / 2, 1 / 2, 1 / 2) : ℚ × ℚ × ℚ) (0, 0, 0) [(0, 0, 0), (8, 0, 0), (0, 8, 0), (0, 0, 8)] [[0, 1, 2, 3]] 2
    (by simp) (by norm_num) (by norm_num) (by norm_num) 4 4 4 (by norm_num) (by norm_num) (by norm_num)).2.2 [0, 1, 2, 3] (by simp) ?_
  norm_num [Spec.InCell, Spec.corners, cellMean]

end Verif.Props
