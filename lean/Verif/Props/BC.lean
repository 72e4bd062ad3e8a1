import Verif.Lemmas.BC
import Verif.Model.Matfree
import Verif.Props.Csr

/-!
# Dirichlet boundary conditions (C10 - C15)
-/

namespace Verif.Props

open Verif Verif.Model

set_option linter.unusedSectionVars false

/-! ## C10, C11: the compiled condition -/

section create
variable {Pt R : Type*} [Zero R]

/-- One list of mesh points per variable, as many as the variable has nodes. -/
structure PointsOk (vars : List Var) (pts : List (List Pt)) : Prop where
  count : pts.length = vars.length
  nodes : ∀ i < vars.length, (pts.getD i []).length = (vars.getD i ⟨0, 0, 0, []⟩).numNodes

/-- What it means for `(rows, mask, vals)` to be a canonical constrained-row set of an `n`-DOF
system. -/
structure CanonicalBC (n : ℕ) (bc : DirichletBC R) : Prop where
  sorted : bc.rows.Pairwise (· < ·)
  lt : ∀ d ∈ bc.rows, d < n
  maskLength : bc.mask.length = n
  mask : ∀ d < n, bc.mask.getD d false = true ↔ d ∈ bc.rows
  vals : bc.vals.length = bc.rows.length
  total : bc.totalDofs = n

theorem createBC_ok_eq (vars : List Var) (pts : List (List Pt)) (specs : List (BCSpec Pt R))
    (bc : DirichletBC R) (h : createBC vars pts specs = .ok bc) :
    bc.rows = uniq (gather 0 ((allE vars pts specs).map (·.1))
      (argsort ((allE vars pts specs).map (·.1)))) ∧
    bc.vals = bc.rows.map (firstVal (allE vars pts specs)) ∧
    bc.mask = scatterSet (List.replicate (numDofs vars) false) bc.rows (bc.rows.map (fun _ => true)) ∧
    bc.totalDofs = numDofs vars := by
  unfold createBC at h
  simp only at h
  split at h
  · rename_i he
    cases h
    rw [List.isEmpty_iff] at he
    subst he
    have : allE vars pts ([] : List (BCSpec Pt R)) = [] := by simp [allE]
    rw [this]
    refine ⟨?_, rfl, ?_, rfl⟩
    · rfl
    · rfl
  · split at h
    · cases h
    · rename_i es hc
      have hes := collectEntries_ok vars pts specs es hc
      rw [← hes]
      rw [Except.ok.injEq] at h
      clear hes hc
      rw [← h]
      refine ⟨?_, ?_, rfl, rfl⟩
      · simp only
        rw [unique_fst]
        have hs := gather_argsort_sorted (gather 0 (es.map (·.1)) (argsort (es.map (·.1))))
        have hs2 := gather_argsort_sorted (es.map (·.1))
        congr 1
        exact List.Perm.eq_of_pairwise (le := (· ≤ ·)) (fun a b _ _ h1 h2 => le_antisymm h1 h2) hs hs2
          (gather_argsort_perm _)
      · exact sorted_unique_vals es

theorem mem_rows_iff (vars : List Var) (pts : List (List Pt)) (specs : List (BCSpec Pt R))
    (bc : DirichletBC R) (h : createBC vars pts specs = .ok bc) (d : ℕ) :
    d ∈ bc.rows ↔ ∃ e ∈ allE vars pts specs, e.1 = d := by
  rw [(createBC_ok_eq vars pts specs bc h).1, mem_uniq, (gather_argsort_perm _).mem_iff, List.mem_map]

/-- **C10** (shape): sorted without duplicates, in range, mask true exactly on the rows, one value per
row. -/
theorem C10_canonical (vars : List Var) (pts : List (List Pt)) (specs : List (BCSpec Pt R))
    (hp : PointsOk vars pts) (bc : DirichletBC R) (h : createBC vars pts specs = .ok bc) :
    CanonicalBC (numDofs vars) bc := by
  obtain ⟨h1, h2, h3, h4⟩ := createBC_ok_eq vars pts specs bc h
  have hlt : ∀ d ∈ bc.rows, d < numDofs vars := by
    intro d hd
    obtain ⟨e, he, rfl⟩ := (mem_rows_iff vars pts specs bc h d).mp hd
    obtain ⟨i, node, comp, hv, e'⟩ := mem_allE vars pts specs hp.count hp.nodes e he
    rw [e']
    rw [dofNumber_eq_offset vars hv.1]
    exact ((C08_numbering_bijective vars).1 i node comp hv)
  refine ⟨?_, hlt, ?_, ?_, ?_, h4⟩
  · rw [h1]; exact uniq_pairwise (gather_argsort_sorted _)
  · rw [h3, scatterSet_length, List.length_replicate]
  · intro d hd
    rw [h3, scatterSet_const false true _ _ _ (by simpa using hd)]
    by_cases hm : d ∈ bc.rows
    · simp [hm]
    · simp [hm, hd]
  · rw [h2, List.length_map]

/-- **C10** (content): the constrained DOFs are exactly those some specification selects. -/
theorem C10_rows_exactly_selected (vars : List Var) (pts : List (List Pt))
    (specs : List (BCSpec Pt R)) (hp : PointsOk vars pts) (bc : DirichletBC R)
    (h : createBC vars pts specs = .ok bc) (i node comp : ℕ) (hv : ValidTriple vars i node comp)
    (pt : Pt) (hpt : (pts.getD i [])[node]? = some pt) :
    Spec.dofNumber (fields vars) i node comp ∈ bc.rows ↔
      ∃ s ∈ specs, Spec.selects s i node comp pt = true := by
  rw [mem_rows_iff vars pts specs bc h]
  have hf := filter_allE vars pts specs hp.count hp.nodes hv pt hpt
  constructor
  · rintro ⟨e, he, ed⟩
    have : e ∈ (allE vars pts specs).filter
        (fun e => e.1 == Spec.dofNumber (fields vars) i node comp) := by
      rw [List.mem_filter]; exact ⟨he, by simpa using ed⟩
    rw [hf, List.mem_map] at this
    obtain ⟨s, hs, _⟩ := this
    rw [List.mem_filter] at hs
    exact ⟨s, hs.1, hs.2⟩
  · rintro ⟨s, hs, hsel⟩
    have : (Spec.dofNumber (fields vars) i node comp, s.value pt) ∈ (allE vars pts specs).filter
        (fun e => e.1 == Spec.dofNumber (fields vars) i node comp) := by
      rw [hf, List.mem_map]
      exact ⟨s, List.mem_filter.mpr ⟨hs, hsel⟩, rfl⟩
    exact ⟨_, (List.mem_filter.mp this).1, rfl⟩

/-- **C11**: the compiled value of a constrained DOF is the value function of the first specification
(in the given order) that selects it, evaluated at its node. -/
theorem C11_first_spec_wins (vars : List Var) (pts : List (List Pt))
    (specs : List (BCSpec Pt R)) (hp : PointsOk vars pts) (bc : DirichletBC R)
    (h : createBC vars pts specs = .ok bc) (i node comp : ℕ) (hv : ValidTriple vars i node comp)
    (pt : Pt) (hpt : (pts.getD i [])[node]? = some pt) (s : BCSpec Pt R)
    (hs : specs.find? (fun s => Spec.selects s i node comp pt) = some s) :
    ∃ k : ℕ, bc.rows[k]? = some (Spec.dofNumber (fields vars) i node comp) ∧
      bc.vals[k]? = some (s.value pt) := by
  have hmem : Spec.dofNumber (fields vars) i node comp ∈ bc.rows :=
    (C10_rows_exactly_selected vars pts specs hp bc h i node comp hv pt hpt).mpr
      ⟨s, List.mem_of_find?_eq_some hs, by have := List.find?_some hs; simpa using this⟩
  obtain ⟨k, hk, ek⟩ := List.getElem_of_mem hmem
  refine ⟨k, by rw [List.getElem?_eq_getElem hk, ek], ?_⟩
  have h2 := (createBC_ok_eq vars pts specs bc h).2.1
  rw [h2, List.getElem?_map, List.getElem?_eq_getElem hk, ek, Option.map_some]
  congr 1
  unfold firstVal
  rw [← List.head?_filter, filter_allE vars pts specs hp.count hp.nodes hv pt hpt, List.head?_map,
    List.head?_filter, hs]
  rfl

/-- **C10** (compilation fails only with `ValueError`, and exactly when a location predicate of the
wrong arity is applied to some component). -/
theorem C10_bad_location_rejected (vars : List Var) (pts : List (List Pt))
    (specs : List (BCSpec Pt R)) (hp : PointsOk vars pts) :
    (∀ e, createBC vars pts specs = .error e → e = .valueError) ∧
    ((∃ e, createBC vars pts specs = .error e) ↔
      ∃ s ∈ specs, s.location matches .bad ∧ ∃ i < vars.length,
        ∃ comp < (vars.getD i ⟨0, 0, 0, []⟩).vec,
          (s.variableIndex = none ∨ s.variableIndex = some (i : ℤ)) ∧
          (s.component = .all ∨ s.component = .idx comp)) := by
  refine ⟨?_, ?_⟩
  · intro e he
    unfold createBC at he
    simp only at he
    split at he
    · cases he
    · split at he
      · rename_i e' hc
        cases he
        unfold collectEntries at hc
        split at hc
        · rename_i e1 h1
          cases hc
          obtain ⟨q, _, hq⟩ := forCollect_error_mem _ _ _ h1
          split at hq
          · rename_i e2 h2
            cases hq
            obtain ⟨s, _, hs⟩ := forCollect_error_mem _ _ _ h2
            unfold specEntries at hs
            split at hs
            · rename_i e3 h3
              cases hs
              obtain ⟨c, _, hc⟩ := forCollect_error_mem _ _ _ h3
              unfold componentEntries at hc
              split at hc <;> cases hc
              rfl
            · cases hs
          · cases hq
        · cases hc
      · cases he
  have hcomp : ∀ (s : BCSpec Pt R) vec off p comp, (∃ e, componentEntries s vec off p comp = .error e) ↔
      s.location matches .bad := by
    intro s vec off p comp
    unfold componentEntries
    cases s.location <;> simp
  have hspec : ∀ (s : BCSpec Pt R) i v off p, (∃ e, specEntries i v off p s = .error e) ↔
      s.location matches .bad ∧ ∃ comp, comp ∈ specComponents s i v.vec := by
    intro s i v off p
    unfold specEntries
    constructor
    · rintro ⟨e, he⟩
      split at he
      · rename_i e' hc
        obtain ⟨c, hc1, hc2⟩ := forCollect_error_mem _ _ _ hc
        exact ⟨(hcomp s v.vec off p c).mp ⟨_, hc2⟩, c, hc1⟩
      · cases he
    · rintro ⟨hb, c, hc⟩
      split
      · exact ⟨_, rfl⟩
      · rename_i ls hok
        exfalso
        cases hcs : specComponents s i v.vec with
        | nil => rw [hcs] at hc; simp at hc
        | cons x xs =>
          rw [hcs, forCollect] at hok
          obtain ⟨e, he⟩ := (hcomp s v.vec off p x).mpr hb
          rw [he] at hok
          cases hok
  have hcollect : (∃ e, collectEntries vars pts specs = .error e) ↔
      ∃ s ∈ specs, s.location matches .bad ∧ ∃ i < vars.length,
        ∃ comp, comp ∈ specComponents s i (vars.getD i ⟨0, 0, 0, []⟩).vec := by
    unfold collectEntries
    constructor
    · rintro ⟨e, he⟩
      split at he
      · rename_i e' hc
        obtain ⟨q, hq, e'', hqe⟩ := (forCollect_error_iff _ _).mp ⟨_, hc⟩
        split at hqe
        · rename_i e3 hc3
          obtain ⟨s, hs, e4, hse⟩ := (forCollect_error_iff _ _).mp ⟨_, hc3⟩
          obtain ⟨hb, c, hcm⟩ := (hspec s _ _ _ _).mp ⟨_, hse⟩
          obtain ⟨_, hlt, hqe'⟩ := List.mem_zipIdx hq
          have hlt' : q.2 < vars.length := by
            have : q.2 < ((vars.zip (offsets vars)).zip pts).length := by omega
            simp only [List.length_zip] at this
            omega
          have hget := zip3_getElem? vars pts hp.count q.2 hlt'
          have hq1 : q.1 = ((vars.getD q.2 ⟨0, 0, 0, []⟩, (offsets vars).getD q.2 0),
              pts.getD q.2 []) := by
            have : ((vars.zip (offsets vars)).zip pts)[q.2]? = some q.1 := by
              rw [hqe']; exact List.getElem?_eq_getElem (by omega)
            rw [this] at hget
            exact Option.some.inj hget
          rw [hq1] at hcm
          exact ⟨s, hs, hb, q.2, hlt', c, hcm⟩
        · cases hqe
      · cases he
    · rintro ⟨s, hs, hb, i, hi, c, hc⟩
      have hget := zip3_getElem? vars pts hp.count i hi
      split
      · exact ⟨_, rfl⟩
      · rename_i ls hok
        exfalso
        have hbad := (forCollect_error_iff (fun (q : ((Var × ℕ) × List Pt) × ℕ) =>
          match forCollect (specEntries q.2 q.1.1.1 q.1.1.2 q.1.2) specs with
          | .error e => .error e
          | .ok ls => .ok ls.flatten) (((vars.zip (offsets vars)).zip pts).zipIdx)).mpr
          ⟨(((vars.getD i ⟨0, 0, 0, []⟩, (offsets vars).getD i 0), pts.getD i []), i), by
            rw [List.mem_zipIdx_iff_getElem?]; exact hget, by
            obtain ⟨e, he⟩ := (hspec s i (vars.getD i ⟨0, 0, 0, []⟩) ((offsets vars).getD i 0)
              (pts.getD i [])).mpr ⟨hb, c, hc⟩
            obtain ⟨e', he'⟩ := (forCollect_error_iff (specEntries i (vars.getD i ⟨0, 0, 0, []⟩)
              ((offsets vars).getD i 0) (pts.getD i [])) specs).mpr ⟨s, hs, e, he⟩
            simp only [he']
            exact ⟨e', rfl⟩⟩
        obtain ⟨e, he⟩ := hbad
        have := he.symm.trans hok
        cases this
  have hcreate : (∃ e, createBC vars pts specs = .error e) ↔
      (∃ e, collectEntries vars pts specs = .error e) := by
    unfold createBC
    simp only
    constructor
    · rintro ⟨e, he⟩
      split at he
      · cases he
      · split at he
        · rename_i e' hc; exact ⟨e', hc⟩
        · cases he
    · rintro ⟨e, he⟩
      have hne : specs.isEmpty = false := by
        obtain ⟨s, hs, _⟩ := hcollect.mp ⟨e, he⟩
        cases specs with
        | nil => simp at hs
        | cons _ _ => rfl
      rw [hne, he]
      exact ⟨e, rfl⟩
  rw [hcreate, hcollect]
  constructor
  · rintro ⟨s, hs, hb, i, hi, c, hc⟩
    have := (mem_specComponents s i _ c).mp hc
    exact ⟨s, hs, hb, i, hi, c, this.1, by simpa using this.2.1, by simpa using this.2.2⟩
  · rintro ⟨s, hs, hb, i, hi, c, hc, h1, h2⟩
    exact ⟨s, hs, hb, i, hi, c, (mem_specComponents s i _ c).mpr
      ⟨hc, by simpa using h1, by simpa using h2⟩⟩

/-- **C10** (component names): `'x' 'y' 'z' 'all'` in any case and non-negative integers are accepted
with the obvious meaning, everything else is a `ValueError`. -/
theorem C10_component_names (r : RawComp) :
    normalizeComp r = match r with
      | .int z => if 0 ≤ z then .ok (.idx z.toNat) else .error .valueError
      | .str s =>
        if s.toLower = "all" then .ok .all
        else match (["x", "y", "z"].findIdx? (· == s.toLower)) with
          | some k => .ok (.idx k)
          | none => .error .valueError := by
  cases r with
  | int z =>
    simp only [normalizeComp]
    by_cases h : z < 0
    · rw [if_pos h, if_neg (by omega)]
    · rw [if_neg h, if_pos (by omega)]
  | str s =>
    simp only [normalizeComp, List.findIdx?_cons, beq_iff_eq]
    generalize s.toLower = t
    by_cases hx : t = "x"
    · subst hx; decide
    · by_cases hy : t = "y"
      · subst hy; decide
      · by_cases hz : t = "z"
        · subst hz; decide
        · by_cases ha : t = "all"
          · subst ha; decide
          · rw [if_neg hx, if_neg hy, if_neg hz, if_neg ha]
            have hx' : ("x" == t) = false := by simp [Ne.symm hx]
            have hy' : ("y" == t) = false := by simp [Ne.symm hy]
            have hz' : ("z" == t) = false := by simp [Ne.symm hz]
            simp [ha, Ne.symm hx, Ne.symm hy, Ne.symm hz]

end create

/-! ## C12: the eliminated Jacobian -/

/-- `J` has the pattern the problem built, and one value per slot. -/
structure HasPattern {R : Type*} (p : Problem) (J : CSRMatrix R) : Prop where
  indptr : J.indptr = p.maps.indptr
  indices : J.indices = p.maps.indices
  rows : J.numRows = p.n
  cols : J.numCols = p.n
  data : J.data.length = p.maps.nse

theorem maps_diagSlots (p : Problem) :
    p.maps.diagSlots = diagSlotsOf p.n (p.u.map (· / p.n)) (p.u.map (· % p.n)) :=
  build_diagSlots _ _ _ _ _

theorem diagSlots_spec {n : ℕ} {u : List ℕ} (hu : u.Nodup) {r : ℕ}
    (hr : r < n) :
    (r * n + r ∈ u → (diagSlotsOf n (u.map (· / n)) (u.map (· % n))).getD r (-1)
      = ((u.idxOf (r * n + r) : ℕ) : ℤ)) ∧
    (r * n + r ∉ u → (diagSlotsOf n (u.map (· / n)) (u.map (· % n))).getD r (-1) = -1) := by
  unfold diagSlotsOf
  simp only [List.length_map]
  set dp := (List.range u.length).filter
    (fun p => (u.map (· / n)).getD p 0 == (u.map (· % n)).getD p 0) with hdp
  have hdpm : ∀ s, s ∈ dp ↔ s < u.length ∧ u.getD s 0 / n = u.getD s 0 % n := by
    intro s
    rw [hdp, List.mem_filter, List.mem_range]
    constructor
    · rintro ⟨h1, h2⟩
      refine ⟨h1, ?_⟩
      simpa [List.getD_eq_getElem?_getD, h1] using h2
    · rintro ⟨h1, h2⟩
      refine ⟨h1, ?_⟩
      simpa [List.getD_eq_getElem?_getD, h1] using h2
  have hrow : ∀ s, s < u.length → (u.map (· / n)).getD s 0 = u.getD s 0 / n := by
    intro s hs; simp [List.getD_eq_getElem?_getD, hs]
  have hkey : ∀ s ∈ dp, ∀ r, (u.map (· / n)).getD s 0 = r → u.getD s 0 = r * n + r := by
    intro s hs r hsr
    obtain ⟨h1, h2⟩ := (hdpm s).mp hs
    rw [hrow s h1] at hsr
    have := Nat.div_add_mod (u.getD s 0) n
    rw [← h2, hsr] at this
    rw [← this, Nat.mul_comm]
  have hnd : dp.Nodup := List.nodup_range.filter _
  have hidx : (gather 0 (u.map (· / n)) dp).Nodup := by
    unfold gather
    rw [List.nodup_map_iff_inj_on hnd]
    intro s hs t ht e
    have e1 := hkey s hs _ rfl
    have e2 := hkey t ht _ rfl
    rw [e, ← e2] at e1
    have h1 := ((hdpm s).mp hs).1
    have h2 := ((hdpm t).mp ht).1
    rw [List.getD_eq_getElem _ _ h1, List.getD_eq_getElem _ _ h2] at e1
    exact (List.Nodup.getElem_inj_iff hu).mp e1
  constructor
  · intro hm
    have hs : u.idxOf (r * n + r) < u.length := List.idxOf_lt_length_of_mem hm
    set s := u.idxOf (r * n + r) with hsdef
    have hget : u.getD s 0 = r * n + r := by
      rw [List.getD_eq_getElem _ _ hs]; exact List.getElem_idxOf hs
    have hsd : s ∈ dp := by
      rw [hdpm, hget, key_div hr, key_mod hr]; exact ⟨hs, rfl⟩
    obtain ⟨k, hk, ek⟩ := List.getElem_of_mem hsd
    have hg : (gather 0 (u.map (· / n)) dp).getD k 0 = r := by
      unfold gather
      rw [List.getD_eq_getElem _ _ (by simpa using hk), List.getElem_map, ek, hrow s hs, hget, key_div hr]
    have := scatterSet_getD_nodup (-1) (List.replicate n (-1)) (gather 0 (u.map (· / n)) dp)
      (dp.map Int.ofNat) hidx k (by simpa [gather] using hk) (by simpa using hk) (by rw [hg]; simpa using hr)
    rw [hg] at this
    rw [this, List.getD_eq_getElem _ _ (by simpa using hk), List.getElem_map, ek]
    rfl
  · intro hm
    rw [scatterSet_getD_not_mem]
    · simp [List.getD_eq_getElem?_getD, hr]
    · unfold gather
      rw [List.mem_map]
      rintro ⟨s, hs, e⟩
      have := hkey s hs r e
      have h1 := ((hdpm s).mp hs).1
      apply hm
      rw [← this, List.getD_eq_getElem _ _ h1]
      exact List.getElem_mem h1

section jac
variable {R : Type*} [CommRing R]

/-- Value array after elimination, slot by slot in terms of the coordinates of the slot. -/
theorem applyBcJ_eq {p : Problem} (bc : DirichletBC R) (hbc : CanonicalBC p.n bc)
    (hdiag : ∀ r ∈ bc.rows, r * p.n + r ∈ p.u) (f : ℕ → R) (symmetric : Bool) :
    applyBcJ bc p.maps (p.u.map f) symmetric = p.u.map (fun k =>
      if ∃ r ∈ bc.rows, r * p.n + r = k then 1
      else if bc.mask.getD (k / p.n) false || (symmetric && bc.mask.getD (k % p.n) false) then 0
      else f k) := by
  unfold applyBcJ
  simp only
  rw [p.maps_rowOfSlot, p.maps_indices, maps_diagSlots]
  have hz : List.zipWith (fun z x => if z then 0 else x)
      (if symmetric then List.zipWith (· || ·) (gather false bc.mask (p.u.map (· / p.n)))
        (gather false bc.mask (p.u.map (· % p.n))) else gather false bc.mask (p.u.map (· / p.n)))
      (p.u.map f)
      = p.u.map (fun k => if bc.mask.getD (k / p.n) false || (symmetric && bc.mask.getD (k % p.n) false)
        then 0 else f k) := by
    unfold gather
    cases symmetric <;>
    simp [List.map_map, List.zipWith_map, List.zipWith_self, Function.comp_def]
  rw [hz]
  set g := fun k => if bc.mask.getD (k / p.n) false || (symmetric && bc.mask.getD (k % p.n) false)
        then 0 else f k with hg
  have hslots : gather (-1) (diagSlotsOf p.n (p.u.map (· / p.n)) (p.u.map (· % p.n))) bc.rows
      = (bc.rows.map (fun r => p.u.idxOf (r * p.n + r))).map Int.ofNat := by
    unfold gather
    rw [List.map_map]
    apply List.map_congr_left
    intro r hr
    exact (diagSlots_spec p.u_nodup (hbc.lt r hr)).1 (hdiag r hr)
  rw [hslots]
  have hfold : ∀ (is : List ℕ) (arr : List R),
      (is.map Int.ofNat).foldl (fun acc s => setAtInt acc s 1) arr
        = scatterSet arr is (is.map (fun _ => 1)) := by
    intro is
    induction is with
    | nil => intro arr; rfl
    | cons i is ih =>
      intro arr
      rw [List.map_cons, List.foldl_cons, ih]
      have : setAtInt arr (Int.ofNat i) 1 = arr.set i 1 := by
        have h0 : ¬ (Int.ofNat i < 0) := by simp
        unfold setAtInt
        simp only [h0, if_false]
        rw [if_pos (by simp)]
        rfl
      rw [this]
      rfl
  rw [hfold]
  apply list_eq_map_of_getD 0
  · rw [scatterSet_length, List.length_map]
  · intro s hs
    rw [scatterSet_const _ _ _ _ _ (by simpa using hs)]
    have hmem : s ∈ bc.rows.map (fun r => p.u.idxOf (r * p.n + r)) ↔
        ∃ r ∈ bc.rows, r * p.n + r = p.u.getD s 0 := by
      rw [List.mem_map]
      constructor
      · rintro ⟨r, hr, e⟩
        refine ⟨r, hr, ?_⟩
        have h1 := List.idxOf_lt_length_of_mem (hdiag r hr)
        subst e
        rw [List.getD_eq_getElem _ _ hs, List.getElem_idxOf h1]
      · rintro ⟨r, hr, e⟩
        refine ⟨r, hr, ?_⟩
        rw [e, List.getD_eq_getElem _ _ hs]
        exact p.u_nodup.idxOf_getElem s hs
    have hgs : (p.u.map g).getD s 0 = g (p.u.getD s 0) := by
      simp [List.getD_eq_getElem?_getD, hs]
    rw [hgs]
    by_cases hm : ∃ r ∈ bc.rows, r * p.n + r = p.u.getD s 0
    · rw [if_pos hm, if_pos (hmem.mpr hm)]
    · rw [if_neg hm, if_neg (fun hh => hm (hmem.mp hh))]

theorem pattern_data_eq {p : Problem} {J : CSRMatrix R} (hJ : HasPattern p J) :
    J = CSRMatrix.mk (p.u.map (fun k => J.data.getD (p.u.idxOf k) 0))
      (ptrOfRows p.n (p.u.map (· / p.n))) (p.u.map (· % p.n)) p.n p.n := by
  have hd : J.data = p.u.map (fun k => J.data.getD (p.u.idxOf k) 0) := by
    apply list_eq_map_of_getD 0
    · rw [hJ.data, p.maps_nse]
    · intro s hs
      rw [List.getD_eq_getElem p.u _ hs, p.u_nodup.idxOf_getElem s hs]
  obtain ⟨d, ip, ix, nr, nc⟩ := J
  obtain ⟨h1, h2, h3, h4, h5⟩ := hJ
  simp only at h1 h2 h3 h4 hd ⊢
  rw [← hd, h1, h2, h3, h4, p.maps_indptr, p.maps_indices]

/-- **C12**. If every constrained DOF has a stored diagonal entry, the eliminated matrix is, entry by
entry: identity on constrained rows; elsewhere the original matrix, with constrained columns zeroed
under symmetric elimination. -/
theorem C12_eliminated_jacobian (p : Problem) (h : p.WF) (bc : DirichletBC R)
    (hbc : CanonicalBC p.n bc) (J : CSRMatrix R) (hJ : HasPattern p J)
    (hdiag : ∀ r ∈ bc.rows, Spec.Stored J.indptr J.indices r r) (symmetric : Bool)
    (i j : ℕ) (hi : i < p.n) (hj : j < p.n) :
    (jacBc p bc J symmetric).todense i j
      = if i ∈ bc.rows then (if i = j then 1 else 0)
        else if symmetric = true ∧ j ∈ bc.rows then 0
        else J.todense i j := by
  have hdiag' : ∀ r ∈ bc.rows, r * p.n + r ∈ p.u := by
    intro r hr
    have := hdiag r hr
    rw [hJ.indptr, hJ.indices, p.maps_indptr, p.maps_indices,
      stored_iff_mem p.n p.u p.u_sorted (hbc.lt r hr) (hbc.lt r hr)] at this
    exact this
  set f := fun k => J.data.getD (p.u.idxOf k) 0 with hf
  have hJe := pattern_data_eq hJ
  have hJd : J.data = p.u.map f := by
    conv_lhs => rw [hJe]
  have e : jacBc p bc J symmetric = CSRMatrix.mk (p.u.map (fun k =>
      if ∃ r ∈ bc.rows, r * p.n + r = k then 1
      else if bc.mask.getD (k / p.n) false || (symmetric && bc.mask.getD (k % p.n) false) then 0
      else f k)) (ptrOfRows p.n (p.u.map (· / p.n))) (p.u.map (· % p.n)) p.n p.n := by
    unfold jacBc CSRMatrix.withData
    rw [hJd, applyBcJ_eq bc hbc hdiag' f symmetric]
    rw [hJ.indptr, hJ.indices, hJ.rows, hJ.cols, p.maps_indptr, p.maps_indices]
  rw [e, todense_of_keys p.n p.u p.u_sorted h.u_div_lt _ hi hj]
  have e2 : J.todense i j = if i * p.n + j ∈ p.u then f (i * p.n + j) else 0 := by
    conv_lhs => rw [hJe]
    exact todense_of_keys p.n p.u p.u_sorted h.u_div_lt _ hi hj
  rw [e2, key_div hj, key_mod hj]
  have hd : (∃ r ∈ bc.rows, r * p.n + r = i * p.n + j) ↔ i ∈ bc.rows ∧ i = j := by
    constructor
    · rintro ⟨r, hr, er⟩
      obtain ⟨e3, e4⟩ := key_inj hj (hbc.lt r hr) er
      subst e3; exact ⟨hr, e4⟩
    · rintro ⟨hr, rfl⟩; exact ⟨i, hr, rfl⟩
  have hmi := hbc.mask i hi
  have hmj := hbc.mask j hj
  by_cases h1 : i ∈ bc.rows
  · rw [if_pos h1, hmi.mpr h1]
    by_cases h2 : i = j
    · rw [if_pos h2, if_pos (by rw [← h2]; exact hdiag' i h1), if_pos (hd.mpr ⟨h1, h2⟩)]
    · rw [if_neg h2, if_neg (fun hh => h2 (hd.mp hh).2)]
      simp
  · have hmi' : bc.mask.getD i false = false := by
      rw [Bool.eq_false_iff]; exact fun hh => h1 (hmi.mp hh)
    rw [if_neg h1, if_neg (fun hh => h1 (hd.mp hh).1), hmi', Bool.false_or]
    by_cases h2 : symmetric = true ∧ j ∈ bc.rows
    · rw [if_pos h2, h2.1, hmj.mpr h2.2]; simp
    · rw [if_neg h2]
      have : (symmetric && bc.mask.getD j false) = false := by
        rw [Bool.eq_false_iff]
        intro hh
        rw [Bool.and_eq_true] at hh
        exact h2 ⟨hh.1, hmj.mp hh.2⟩
      rw [this]
      simp

/-- **C12** (symmetry is preserved by symmetric elimination). -/
theorem C12_symmetric_stays_symmetric (p : Problem) (h : p.WF) (bc : DirichletBC R)
    (hbc : CanonicalBC p.n bc) (J : CSRMatrix R) (hJ : HasPattern p J)
    (hdiag : ∀ r ∈ bc.rows, Spec.Stored J.indptr J.indices r r)
    (hsym : ∀ i j, i < p.n → j < p.n → J.todense i j = J.todense j i)
    (i j : ℕ) (hi : i < p.n) (hj : j < p.n) :
    (jacBc p bc J true).todense i j = (jacBc p bc J true).todense j i := by
  rw [C12_eliminated_jacobian p h bc hbc J hJ hdiag true i j hi hj,
    C12_eliminated_jacobian p h bc hbc J hJ hdiag true j i hj hi, hsym i j hi hj]
  by_cases h1 : i ∈ bc.rows <;> by_cases h2 : j ∈ bc.rows <;> simp [h1, h2, eq_comm]
  · rintro rfl; exact absurd h1 h2
  · rintro rfl; exact absurd h2 h1

/-- **C12** (pattern): elimination never changes the stored pattern nor the shape. -/
theorem C12_pattern_unchanged (p : Problem) (bc : DirichletBC R) (J : CSRMatrix R) (symmetric : Bool) :
    (jacBc p bc J symmetric).indptr = J.indptr ∧ (jacBc p bc J symmetric).indices = J.indices ∧
    (jacBc p bc J symmetric).numRows = J.numRows ∧ (jacBc p bc J symmetric).numCols = J.numCols :=
  ⟨rfl, rfl, rfl, rfl⟩

end jac

section jacAsm
variable {R : Type*} [CommRing R] {α β : Type*}
variable (p : Problem) (kv : α → Local R) (kf : ℕ → β → Local R) (zv : α) (zf : β)
  (cellsIn : List α) (facesIn : List (List β)) (batch : ℕ)

theorem getJacobian_hasPattern (h : p.WF) (hs : Shapes p kv kf cellsIn facesIn) (hb : 0 < batch) :
    HasPattern p (getJacobian p kv kf zv zf cellsIn facesIn false batch) := by
  refine ⟨?_, ?_, ?_, ?_, ?_⟩
  · simp only [getJacobian]
  · simp only [getJacobian]
  · simp only [getJacobian]
  · simp only [getJacobian]
  rw [getJacobian_data h hs zv zf hb, List.length_map, p.maps_nse]

/-- **C12** for assembled matrices: a DOF of any element has a stored diagonal entry, so elimination
is exact as soon as every constrained DOF belongs to some element. -/
theorem C12_assembled (h : p.WF) (hs : Shapes p kv kf cellsIn facesIn) (hb : 0 < batch)
    (bc : DirichletBC R) (hbc : CanonicalBC p.n bc)
    (hused : ∀ r ∈ bc.rows, ∃ e ∈ elements p kv kf cellsIn facesIn, r ∈ e.dofs)
    (symmetric : Bool) (i j : ℕ) (hi : i < p.n) (hj : j < p.n) :
    (jacBc p bc (getJacobian p kv kf zv zf cellsIn facesIn false batch) symmetric).todense i j
      = if i ∈ bc.rows then (if i = j then 1 else 0)
        else if symmetric = true ∧ j ∈ bc.rows then 0
        else if p.view.keep i j then Spec.assembledMat (elements p kv kf cellsIn facesIn) i j
        else 0 := by
  have hJ := getJacobian_hasPattern p kv kf zv zf cellsIn facesIn batch h hs hb
  rw [C12_eliminated_jacobian p h bc hbc _ hJ ?_ symmetric i j hi hj,
    C01_jacobian_is_dense_sum p kv kf zv zf cellsIn facesIn batch h hs hb i j hi hj]
  intro r hr
  rw [hJ.indptr, hJ.indices, C02_stored_iff_coupled p kv kf cellsIn facesIn h hs r r (hbc.lt r hr)
    (hbc.lt r hr)]
  obtain ⟨e, he, hre⟩ := hused r hr
  refine ⟨?_, e, he, hre, hre⟩
  cases p.view <;> simp [MatrixView.keep]

end jacAsm

/-! ## C13, C15: the residual -/

section res
variable {R : Type*} [CommRing R]

/-- **C13**: constrained entries become `u - scale * value`, the others stay. -/
theorem C13_boundary_residual (n : ℕ) (bc : DirichletBC R) (hbc : CanonicalBC n bc)
    (res sol : List R) (scale : R) (hres : res.length = n) :
    (applyBcRes bc res sol scale).length = n ∧
    (∀ k < bc.rows.length, (applyBcRes bc res sol scale).getD (bc.rows.getD k 0) 0
      = sol.getD (bc.rows.getD k 0) 0 - scale * bc.vals.getD k 0) ∧
    (∀ d, d ∉ bc.rows → (applyBcRes bc res sol scale).getD d 0 = res.getD d 0) := by
  unfold applyBcRes
  refine ⟨by rw [scatterSet_length, hres], ?_, ?_⟩
  · intro k hk
    have hk2 : k < bc.vals.length := by rw [hbc.vals]; exact hk
    rw [scatterSet_getD_nodup 0 res bc.rows _ (hbc.sorted.imp (fun h => Nat.ne_of_lt h)) k hk
      (by simp [gather]; exact ⟨hk, hk2⟩) (by
        rw [hres]; apply hbc.lt; rw [List.getD_eq_getElem _ _ hk]; exact List.getElem_mem hk)]
    rw [List.getD_eq_getElem _ _ (by simp [gather]; exact ⟨hk, hk2⟩), List.getElem_zipWith]
    rw [List.getD_eq_getElem bc.vals _ hk2]
    simp only [gather, List.getElem_map]
    rw [List.getD_eq_getElem bc.rows _ hk]
    ring
  · intro d hd
    exact scatterSet_getD_not_mem 0 _ _ _ _ hd

/-- **C15**: only the values change, the result is still canonical, and the new residual is zero at
the constrained DOFs exactly when the solution has the new values there; other entries are those of
the old condition. -/
theorem C15_replace_vals (n : ℕ) (bc : DirichletBC R) (hbc : CanonicalBC n bc) (v : List R)
    (hv : v.length = bc.rows.length) (res sol : List R) (hres : res.length = n) :
    CanonicalBC n (bc.replaceVals v) ∧ (bc.replaceVals v).rows = bc.rows ∧
    (bc.replaceVals v).mask = bc.mask ∧ (bc.replaceVals v).totalDofs = bc.totalDofs ∧
    (bc.replaceVals v).vals = v ∧
    (∀ k < bc.rows.length, (applyBcRes (bc.replaceVals v) res sol 1).getD (bc.rows.getD k 0) 0 = 0
      ↔ sol.getD (bc.rows.getD k 0) 0 = v.getD k 0) ∧
    (∀ d, d ∉ bc.rows → (applyBcRes (bc.replaceVals v) res sol 1).getD d 0
      = (applyBcRes bc res sol 1).getD d 0) := by
  have hc : CanonicalBC n (bc.replaceVals v) :=
    ⟨hbc.sorted, hbc.lt, hbc.maskLength, hbc.mask, hv, hbc.total⟩
  have h1 := C13_boundary_residual n (bc.replaceVals v) hc res sol 1 hres
  have h2 := C13_boundary_residual n bc hbc res sol 1 hres
  refine ⟨hc, rfl, rfl, rfl, rfl, ?_, ?_⟩
  · intro k hk
    have := h1.2.1 k hk
    rw [show (bc.replaceVals v).rows = bc.rows from rfl] at this
    rw [this, one_mul, sub_eq_zero]
    rfl
  · intro d hd
    rw [h1.2.2 d hd, h2.2.2 d hd]

end res

/-! ## C14: matrix-free operator -/

section matfree
variable {R : Type*} [CommRing R] {α β : Type*}
variable (p : Problem) (kv : α → Local R) (kf : ℕ → β → Local R) (zv : α) (zf : β)
  (cellsIn : List α) (facesIn : List (List β)) (batch : ℕ)

/-- An element with its residual replaced by `mul jac (local part of v)`. -/
def replaceRes (mul : List R → List R → List R) (v : List R) (e : Spec.Elem R) : Spec.Elem R :=
  ⟨e.dofs, mul e.jac (e.dofs.map (fun d => v.getD d 0)), e.jac⟩

theorem faceItems_shape (v : List R) {fI : List (List β)} {fC : List (List ℕ)}
    (hf : List.Forall₂ (fun (a : List β) (b : List ℕ) => a.length = b.length) fI fC) :
    List.Forall₂ (fun (a : List (β × List R)) (b : List ℕ) => a.length = b.length)
      (List.zipWith (fun fs fc => fs.zip ((buildFaceInds p.vars fc).map (gather 0 v))) fI fC) fC := by
  induction hf with
  | nil => exact .nil
  | cons hab _ ih =>
    refine .cons ?_ ih
    simp [buildFaceInds, hab]

theorem items_shapes (mul : List R → List R → List R) (hm : ∀ a b, (mul a b).length = p.ndof)
    (hs : Shapes p kv kf cellsIn facesIn) (v : List R) :
    Shapes p (fun q : α × List R => ⟨mul (kv q.1).jac q.2, (kv q.1).jac⟩)
      (fun k (q : β × List R) => ⟨mul (kf k q.1).jac q.2, (kf k q.1).jac⟩)
      (cellItems p cellsIn v) (faceItems p facesIn v) := by
  refine ⟨?_, faceItems_shape p v hs.faces, fun a => hs.volJac _, fun a => hm _ _,
    fun k x => hs.faceJac _ _, fun k x => hm _ _⟩
  simp [cellItems, p.volInds_count, hs.cells]

theorem items_elements (mul : List R → List R → List R) (hs : Shapes p kv kf cellsIn facesIn)
    (v : List R) :
    elements p (fun q : α × List R => ⟨mul (kv q.1).jac q.2, (kv q.1).jac⟩)
      (fun k (q : β × List R) => ⟨mul (kf k q.1).jac q.2, (kf k q.1).jac⟩)
      (cellItems p cellsIn v) (faceItems p facesIn v)
      = (elements p kv kf cellsIn facesIn).map (replaceRes mul v) := by
  unfold elements
  rw [List.map_append, List.map_map]
  congr 1
  · apply List.ext_getElem
    · simp [cellItems, p.volInds_count, hs.cells]
    · intro c h1 h2
      have hc : c < cellsIn.length := by simpa using h2
      simp [cellItems, replaceRes, Problem.volInds, buildInds, cellDofs_eq_spec, cellNodes, gather]
  · rw [List.map_flatMap]
    unfold faceItems
    have key : ∀ (st : ℕ) (fI : List (List β)) (fC : List (List ℕ)),
        List.Forall₂ (fun (a : List β) (b : List ℕ) => a.length = b.length) fI fC →
        (∀ k, p.faceCells.getD (st + k) [] = fC.getD k []) →
        ((List.zipWith (fun fs fc => fs.zip ((buildFaceInds p.vars fc).map (gather 0 v))) fI fC).zipIdx
          st).flatMap (fun fb => (fb.1.zip (p.faceCells.getD fb.2 [])).map (fun q =>
            (⟨Spec.elemDofs (fields p.vars) (cellNodes p q.2),
              mul (kf fb.2 q.1.1).jac q.1.2, (kf fb.2 q.1.1).jac⟩ : Spec.Elem R)))
        = (fI.zipIdx st).flatMap (fun fb => ((fb.1.zip (p.faceCells.getD fb.2 [])).map (fun q =>
            (⟨Spec.elemDofs (fields p.vars) (cellNodes p q.2), (kf fb.2 q.1).res,
              (kf fb.2 q.1).jac⟩ : Spec.Elem R))).map (replaceRes mul v)) := by
      intro st fI fC hf hk
      induction hf generalizing st with
      | nil => simp
      | cons hab hf ih =>
        rename_i a b l1 l2
        rw [List.zipWith_cons_cons, List.zipIdx_cons, List.zipIdx_cons, List.flatMap_cons,
          List.flatMap_cons]
        congr 1
        · have hb := hk 0
          simp only [Nat.add_zero, List.getD_cons_zero] at hb
          simp only [hb]
          apply List.ext_getElem
          · simp [buildFaceInds]
          · intro c h1 h2
            simp [replaceRes, buildFaceInds, cellDofs_eq_spec, cellNodes, gather]
        · apply ih
          intro k
          have := hk (k + 1)
          rw [List.getD_cons_succ] at this
          rw [← this]
          congr 1
          omega
    exact key 0 facesIn p.faceCells hs.faces (fun k => by rw [Nat.zero_add])

theorem list_sum_comm_finset {γ : Type*} (l : List γ) (s : Finset ℕ) (f : γ → ℕ → R) :
    (l.map (fun e => ∑ j ∈ s, f e j)).sum = ∑ j ∈ s, (l.map (fun e => f e j)).sum := by
  induction l with
  | nil => simp
  | cons x xs ih => simp [ih, Finset.sum_add_distrib]

theorem list_sum_mul {γ : Type*} (l : List γ) (f : γ → R) (c : R) :
    (l.map f).sum * c = (l.map (fun e => f e * c)).sum := by
  induction l with
  | nil => simp
  | cons x xs ih => simp [add_mul, ih]

/-- **C14** (bulk): the directional derivative of the residual is the product with the assembled
tangent. -/
theorem C14_jvp_is_matvec (h : p.WF) (hs : Shapes p kv kf cellsIn facesIn) (hb : 0 < batch)
    (v : List R) (i : ℕ) (hi : i < p.n) :
    (residualJvp p kv kf zv zf cellsIn facesIn batch v).getD i 0
      = ∑ j ∈ Finset.range p.n,
          Spec.assembledMat (elements p kv kf cellsIn facesIn) i j * v.getD j 0 := by
  unfold residualJvp
  rw [C04_residual_is_scatter_add p _ _ (zv, []) (zf, []) _ _ batch h
    (items_shapes p kv kf cellsIn facesIn (localMul p.ndof) (fun _ _ => by simp [localMul]) hs v) hb,
    items_elements p kv kf cellsIn facesIn (localMul p.ndof) hs v]
  rw [List.getD_eq_getElem _ _ (by simpa using hi), List.getElem_map, List.getElem_range]
  unfold Spec.assembledVec Spec.assembledMat
  rw [List.map_map]
  simp only [list_sum_mul]
  rw [← list_sum_comm_finset]
  congr 1
  apply List.map_congr_left
  intro e he
  have hlen := elements_mem_dofs_length h hs e he
  have hlt : ∀ d ∈ e.dofs, d < p.n := by
    have : e.dofs ∈ p.volInds ++ p.faceInds := by
      rw [← elements_dofs hs]; exact List.mem_map.mpr ⟨e, he, rfl⟩
    rcases List.mem_append.mp this with hm | hm
    · exact h.volInds_lt _ hm
    · exact h.faceInds_lt _ hm
  simp only [Function.comp, replaceRes, Finset.sum_mul]
  rw [Finset.sum_comm]
  apply Finset.sum_congr rfl
  intro a ha
  have ha' : a < e.dofs.length := by simpa using ha
  rw [Finset.sum_comm]
  have e1 : (localMul p.ndof e.jac (e.dofs.map (fun d => v.getD d 0))).getD a 0
      = ∑ b ∈ Finset.range e.dofs.length, e.jac.getD (a * e.dofs.length + b) 0 * v.getD (e.dofs.getD b 0) 0 := by
    unfold localMul
    rw [List.getD_eq_getElem _ _ (by simpa [← hlen] using ha'), List.getElem_map, List.getElem_range,
      sum_range_list, ← hlen]
    apply Finset.sum_congr rfl
    intro b hb
    have hb' : b < e.dofs.length := by simpa using hb
    congr 1
    simp [List.getD_eq_getElem?_getD, hb']
  rw [e1]
  by_cases hda : e.dofs.getD a 0 = i
  · refine (if_pos hda).trans ?_
    apply Finset.sum_congr rfl
    intro b hb
    have hb' : b < e.dofs.length := by simpa using hb
    have hdb : e.dofs.getD b 0 ∈ Finset.range p.n := by
      rw [Finset.mem_range]; apply hlt
      rw [List.getD_eq_getElem _ _ hb']; exact List.getElem_mem hb'
    rw [Finset.sum_eq_single (e.dofs.getD b 0)]
    · rw [if_pos ⟨hda, rfl⟩]
    · intro j _ hne
      rw [if_neg (fun hh => hne hh.2.symm), zero_mul]
    · intro hn; exact absurd hdb hn
  · refine (if_neg hda).trans ?_
    symm
    apply Finset.sum_eq_zero
    intro b _
    apply Finset.sum_eq_zero
    intro j _
    rw [if_neg (fun hh => hda hh.1), zero_mul]

/-- **C14** (transpose): the reverse-mode product is the product with the transposed tangent. -/
theorem C14_vjp_is_rmatvec (h : p.WF) (hs : Shapes p kv kf cellsIn facesIn) (hb : 0 < batch)
    (w : List R) (j : ℕ) (hj : j < p.n) :
    (residualVjp p kv kf zv zf cellsIn facesIn batch w).getD j 0
      = ∑ i ∈ Finset.range p.n,
          Spec.assembledMat (elements p kv kf cellsIn facesIn) i j * w.getD i 0 := by
  unfold residualVjp
  rw [C04_residual_is_scatter_add p _ _ (zv, []) (zf, []) _ _ batch h
    (items_shapes p kv kf cellsIn facesIn (localMulT p.ndof) (fun _ _ => by simp [localMulT]) hs w) hb,
    items_elements p kv kf cellsIn facesIn (localMulT p.ndof) hs w]
  rw [List.getD_eq_getElem _ _ (by simpa using hj), List.getElem_map, List.getElem_range]
  unfold Spec.assembledVec Spec.assembledMat
  rw [List.map_map]
  simp only [list_sum_mul]
  rw [← list_sum_comm_finset]
  congr 1
  apply List.map_congr_left
  intro e he
  have hlen := elements_mem_dofs_length h hs e he
  have hlt : ∀ d ∈ e.dofs, d < p.n := by
    have : e.dofs ∈ p.volInds ++ p.faceInds := by
      rw [← elements_dofs hs]; exact List.mem_map.mpr ⟨e, he, rfl⟩
    rcases List.mem_append.mp this with hm | hm
    · exact h.volInds_lt _ hm
    · exact h.faceInds_lt _ hm
  simp only [Function.comp, Finset.sum_mul]
  change (∑ b ∈ Finset.range e.dofs.length, if e.dofs.getD b 0 = j then
        (localMulT p.ndof e.jac (e.dofs.map (fun d => w.getD d 0))).getD b 0 else 0) = _
  have e1 : ∀ b < e.dofs.length, (localMulT p.ndof e.jac (e.dofs.map (fun d => w.getD d 0))).getD b 0
      = ∑ a ∈ Finset.range e.dofs.length, e.jac.getD (a * e.dofs.length + b) 0 * w.getD (e.dofs.getD a 0) 0 := by
    intro b hb'
    unfold localMulT
    rw [List.getD_eq_getElem _ _ (by simpa [← hlen] using hb'), List.getElem_map, List.getElem_range,
      sum_range_list, ← hlen]
    apply Finset.sum_congr rfl
    intro a ha
    have ha' : a < e.dofs.length := by simpa using ha
    congr 1
    simp [List.getD_eq_getElem?_getD, ha']
  have e2 : ∀ b ∈ Finset.range e.dofs.length,
      (if e.dofs.getD b 0 = j then
        (localMulT p.ndof e.jac (e.dofs.map (fun d => w.getD d 0))).getD b 0 else 0)
      = ∑ a ∈ Finset.range e.dofs.length, if e.dofs.getD b 0 = j then
          e.jac.getD (a * e.dofs.length + b) 0 * w.getD (e.dofs.getD a 0) 0 else 0 := by
    intro b hb
    rw [e1 b (by simpa using hb)]
    split_ifs <;> simp
  rw [Finset.sum_congr rfl e2, Finset.sum_comm, Finset.sum_comm (s := Finset.range p.n)]
  apply Finset.sum_congr rfl
  intro a ha
  have ha' : a < e.dofs.length := by simpa using ha
  rw [Finset.sum_comm]
  apply Finset.sum_congr rfl
  intro b hb
  have hda : e.dofs.getD a 0 ∈ Finset.range p.n := by
    rw [Finset.mem_range]; apply hlt
    rw [List.getD_eq_getElem _ _ ha']; exact List.getElem_mem ha'
  rw [Finset.sum_eq_single (e.dofs.getD a 0)]
  · by_cases hdb : e.dofs.getD b 0 = j
    · rw [if_pos hdb, if_pos ⟨rfl, hdb⟩]
    · rw [if_neg hdb, if_neg (fun hh => hdb hh.2), zero_mul]
  · intro i _ hne
    rw [if_neg (fun hh => hne hh.1.symm), zero_mul]
  · intro hn; exact absurd hda hn

/-- **C14**: with full storage, the matrix-free product with boundary conditions equals the product
with the assembled eliminated Jacobian, for row and for symmetric elimination. -/
theorem C14_matfree_eq_assembled (h : p.WF) (hview : p.view = .full)
    (hs : Shapes p kv kf cellsIn facesIn) (hb : 0 < batch)
    (bc : DirichletBC R) (hbc : CanonicalBC p.n bc)
    (hused : ∀ r ∈ bc.rows, ∃ e ∈ elements p kv kf cellsIn facesIn, r ∈ e.dofs)
    (symmetric : Bool) (v : List R) (hv : v.length = p.n) :
    matfreeMatvec p kv kf zv zf cellsIn facesIn batch bc symmetric v
      = (jacBc p bc (getJacobian p kv kf zv zf cellsIn facesIn false batch) symmetric).matvec v := by
  set A := jacBc p bc (getJacobian p kv kf zv zf cellsIn facesIn false batch) symmetric with hA
  have hJ := getJacobian_hasPattern p kv kf zv zf cellsIn facesIn batch h hs hb
  obtain ⟨hA1, hA2, hA3, hA4⟩ := C12_pattern_unchanged p bc
    (getJacobian p kv kf zv zf cellsIn facesIn false batch) symmetric
  rw [← hA, hJ.indptr] at hA1
  rw [← hA, hJ.indices] at hA2
  rw [← hA, hJ.rows] at hA3
  rw [← hA, hJ.cols] at hA4
  have hwf : WellFormed A := by
    refine ⟨by rw [hA1, hA2, hA3, hA4]; exact C02_pattern_canonical p h, ?_⟩
    rw [hA2]
    have hAd : A.data = applyBcJ bc p.maps
      (getJacobian p kv kf zv zf cellsIn facesIn false batch).data symmetric := by
      rw [hA]; simp only [jacBc, CSRMatrix.withData]
    rw [hAd]
    have hd := pattern_data_eq hJ
    have hdata : (getJacobian p kv kf zv zf cellsIn facesIn false batch).data = p.u.map
        (fun k => (getJacobian p kv kf zv zf cellsIn facesIn false batch).data.getD (p.u.idxOf k) 0) := by
      conv_lhs => rw [hd]
    rw [hdata, applyBcJ_eq bc hbc ?_, p.maps_indices, List.length_map, List.length_map]
    intro r hr
    rw [h.key_mem_u (hbc.lt r hr), mem_keysAll_iff_coupled p kv kf cellsIn facesIn h hs (hbc.lt r hr)]
    obtain ⟨e, he, hre⟩ := hused r hr
    exact ⟨by rw [hview]; rfl, e, he, hre, hre⟩
  have hlenK : ∀ x, (residualJvp p kv kf zv zf cellsIn facesIn batch x).length = p.n := by
    intro x
    unfold residualJvp
    rw [C04_residual_is_scatter_add p _ _ (zv, []) (zf, []) _ _ batch h
      (items_shapes p kv kf cellsIn facesIn (localMul p.ndof) (fun _ _ => by simp [localMul]) hs x) hb]
    simp
  have hlenA : (A.matvec v).length = p.n := by rw [(C06_shapes A v).1, hA3]
  unfold matfreeMatvec
  simp only
  set vIn := if symmetric then List.zipWith (fun m x => if m then 0 else x) bc.mask v else v with hvIn
  have hvInget : ∀ j < p.n, vIn.getD j 0
      = if symmetric = true ∧ j ∈ bc.rows then 0 else v.getD j 0 := by
    intro j hj
    have hm := hbc.mask j hj
    have hml : j < bc.mask.length := by rw [hbc.maskLength]; exact hj
    have hvl : j < v.length := by omega
    rw [hvIn]
    cases symmetric with
    | false => simp
    | true =>
      rw [if_pos rfl, List.getD_eq_getElem _ _ (by simp; exact ⟨hml, hvl⟩), List.getElem_zipWith]
      rw [List.getD_eq_getElem _ _ hml] at hm
      rw [List.getD_eq_getElem v _ hvl]
      by_cases hjr : j ∈ bc.rows
      · rw [if_pos (hm.mpr hjr), if_pos ⟨rfl, hjr⟩]
      · rw [if_neg (fun hh => hjr (hm.mp hh)), if_neg (fun hh => hjr hh.2)]
  apply List.ext_getElem
  · simp [hbc.maskLength, hv, hlenK, hlenA]
  · intro i h1 h2
    have hi : i < p.n := by rw [← hlenA]; exact h2
    have hml : i < bc.mask.length := by rw [hbc.maskLength]; exact hi
    have hvl : i < v.length := by omega
    have hm := hbc.mask i hi
    rw [List.getD_eq_getElem _ _ hml] at hm
    rw [List.getElem_zipWith, List.getElem_zip]
    simp only
    have hmv := C06_matvec A hwf v i (by rw [hA3]; exact hi)
    rw [List.getD_eq_getElem _ _ h2] at hmv
    rw [hmv]
    rw [hA4]
    have hent : ∀ j ∈ Finset.range p.n, A.todense i j * v.getD j 0
        = if i ∈ bc.rows then (if i = j then v.getD j 0 else 0)
          else Spec.assembledMat (elements p kv kf cellsIn facesIn) i j * vIn.getD j 0 := by
      intro j hj
      have hj' : j < p.n := by simpa using hj
      rw [hA, C12_assembled p kv kf zv zf cellsIn facesIn batch h hs hb bc hbc hused symmetric i j hi hj',
        hvInget j hj']
      by_cases hir : i ∈ bc.rows
      · rw [if_pos hir, if_pos hir]; split_ifs <;> simp
      · rw [if_neg hir, if_neg hir]
        have hk : p.view.keep i j = true := by rw [hview]; rfl
        by_cases hjr : symmetric = true ∧ j ∈ bc.rows
        · rw [if_pos hjr, if_pos hjr]; simp
        · rw [if_neg hjr, if_neg hjr, if_pos hk]
    rw [Finset.sum_congr rfl hent]
    by_cases hir : i ∈ bc.rows
    · rw [if_pos (hm.mpr hir)]
      simp only [if_pos hir]
      rw [Finset.sum_ite_eq, if_pos (by simpa using hi), List.getD_eq_getElem _ _ hvl]
    · rw [if_neg (fun hh => hir (hm.mp hh))]
      simp only [if_neg hir]
      rw [← C14_jvp_is_matvec p kv kf zv zf cellsIn facesIn batch h hs hb vIn i hi,
        List.getD_eq_getElem _ _ (by rw [hlenK]; exact hi)]

end matfree

/-! ## Concrete cases -/

/-- Two fields (2 and 1 components) on three nodes. -/
def exBcVars : List Var := [⟨2, 3, 2, [[0, 1], [1, 2]]⟩, ⟨1, 3, 2, [[0, 1], [1, 2]]⟩]

/-- Node coordinates. -/
def exBcPts : List (List ℤ) := [[0, 10, 20], [0, 10, 20]]

/-- Overlapping specifications: both ends of every field, then the second component everywhere. -/
def exBcSpecs : List (BCSpec ℤ ℤ) :=
  [⟨.one (fun x => decide (x = 0)), .all, fun _ => 7, some 0⟩,
   ⟨.two (fun _ k => decide (k ≠ 1)), .idx 0, fun x => x + 1, none⟩,
   ⟨.one (fun _ => true), .idx 1, fun x => -x, none⟩]

theorem exBc_points : PointsOk exBcVars exBcPts := ⟨rfl, by decide⟩

/-- DOF 0 is claimed by specs 0 and 1, DOF 1 by specs 0 and 2: the earlier one wins. -/
theorem exBc_ok : createBC exBcVars exBcPts exBcSpecs = .ok
    ⟨[0, 1, 3, 4, 5, 6, 8], [true, true, false, true, true, true, true, false, true],
      [7, 7, -10, 21, -20, 1, 21], 9⟩ := by decide

example := C10_canonical exBcVars exBcPts exBcSpecs exBc_points _ exBc_ok
example := C10_rows_exactly_selected exBcVars exBcPts exBcSpecs exBc_points _ exBc_ok 0 2 1
  ⟨by decide, by decide, by decide⟩ 20 rfl
example := C11_first_spec_wins exBcVars exBcPts exBcSpecs exBc_points _ exBc_ok 0 0 1
  ⟨by decide, by decide, by decide⟩ 0 rfl _ rfl
example : ∃ e, createBC exBcVars exBcPts
    (exBcSpecs ++ [⟨.bad, .idx 1, fun x => x, some 0⟩]) = .error e := ⟨.valueError, by decide⟩
example : normalizeComp (.int 2) = .ok (.idx 2) ∧ normalizeComp (.int (-1)) = .error .valueError := by
  decide

/-- The two-bar problem of the assembly examples, first node constrained to `4`. -/
def exBc : DirichletBC ℤ := ⟨[0], [true, false, false], [4], 3⟩

theorem exBc_canonical : CanonicalBC exP.n exBc :=
  ⟨by decide, by decide, by decide, by decide, by decide, by decide⟩

theorem exBc_used : ∀ r ∈ exBc.rows, ∃ e ∈ elements exP exKv exKf [2, 3] [[7]], r ∈ e.dofs := by
  intro r hr
  simp only [exBc, List.mem_singleton] at hr
  subst hr
  refine ⟨_, List.mem_append_left _ (List.mem_map.mpr ⟨(2, 0), by decide, rfl⟩), by decide⟩

example := C12_assembled exP exKv exKf 0 0 [2, 3] [[7]] 1 exP_wf exP_shapes (by decide) exBc
  exBc_canonical exBc_used
example : (List.range 3).map (fun i => (List.range 3).map
    ((jacBc exP exBc (getJacobian exP exKv exKf 0 0 [2, 3] [[7]] false 1) true).todense i))
    = [[1, 0, 0], [0, 5, -3], [0, -3, 10]] := by decide
example : (List.range 3).map (fun i => (List.range 3).map
    ((jacBc exP exBc (getJacobian exP exKv exKf 0 0 [2, 3] [[7]] false 1) false).todense i))
    = [[1, 0, 0], [-2, 5, -3], [0, -3, 10]] := by decide
example : ∀ r ∈ exBc.rows, Spec.Stored exP.maps.indptr exP.maps.indices r r := by
  intro r hr
  simp only [exBc, List.mem_singleton] at hr
  subst hr
  exact ⟨0, by decide, by decide, by decide⟩
example : ∀ i < 3, ∀ j < 3,
    (getJacobian exP exKv exKf 0 0 [2, 3] [[7]] false 1).todense i j
      = (getJacobian exP exKv exKf 0 0 [2, 3] [[7]] false 1).todense j i := by decide
example := C13_boundary_residual 3 exBc exBc_canonical [2, 1, 4] [9, 8, 7] 2 rfl
example : applyBcRes exBc [2, 1, 4] [9, 8, 7] 2 = [1, 1, 4] := by decide
example := C14_matfree_eq_assembled exP exKv exKf 0 0 [2, 3] [[7]] 1 exP_wf rfl exP_shapes
  (by decide) exBc exBc_canonical exBc_used true [5, 6, 7] rfl
example : matfreeMatvec exP exKv exKf 0 0 [2, 3] [[7]] 1 exBc true [5, 6, 7] = [5, 9, 52] := by decide
example := C15_replace_vals 3 exBc exBc_canonical [6] rfl [2, 1, 4] [9, 8, 7] rfl

/-- A mesh with a node that belongs to no cell (node 3), constrained. -/
def exOrphan : Problem := ⟨[⟨1, 4, 2, [[0, 1], [1, 2]]⟩], 2, [], .full⟩

/-- The orphan node constrained. -/
def exOrphanBc : DirichletBC ℤ := ⟨[3], [false, false, false, true], [4], 4⟩

/-- **C12** (the hypothesis on the diagonal is needed; behaviour of the code when it fails): for a
constrained DOF outside every element, the row of the eliminated matrix is zero instead of identity,
and the diagonal entry of the *last stored row*, an unconstrained one, is overwritten by `1`. -/
theorem C12_orphan_dof_not_eliminated :
    CanonicalBC exOrphan.n exOrphanBc ∧ exOrphan.n = 4 ∧
    (getJacobian exOrphan exKv exKf 0 0 [2, 3] [] false 1).todense 2 2 = 3 ∧
    (jacBc exOrphan exOrphanBc (getJacobian exOrphan exKv exKf 0 0 [2, 3] [] false 1) true).todense 3 3
      = 0 ∧
    (jacBc exOrphan exOrphanBc (getJacobian exOrphan exKv exKf 0 0 [2, 3] [] false 1) true).todense 2 2
      = 1 :=
  ⟨⟨by decide, by decide, by decide, by decide, by decide, by decide⟩, by decide, by decide, by decide,
    by decide⟩

/-- **C14** (storage matters): with triangular storage the plain product with the assembled matrix is
not the matrix-free product; the solvers must use the triangular product of C05. -/
theorem C14_triangular_storage_differs :
    (jacBc (withView exP .upper) exBc
      (getJacobian (withView exP .upper) exKv exKf 0 0 [2, 3] [[7]] false 1) true).matvec [5, 6, 7]
      ≠ matfreeMatvec (withView exP .upper) exKv exKf 0 0 [2, 3] [[7]] 1 exBc true [5, 6, 7] := by
  decide

example := C10_bad_location_rejected exBcVars exBcPts (exBcSpecs ++ [⟨.bad, .idx 1, fun x => x, some 0⟩]) exBc_points

theorem exBc_diagonal : ∀ r ∈ exBc.rows, Spec.Stored exP.maps.indptr exP.maps.indices r r := by
  intro r hr
  simp only [exBc, List.mem_singleton] at hr
  subst hr
  exact ⟨0, by decide, by decide, by decide⟩

theorem exP_pattern : HasPattern exP (getJacobian exP exKv exKf 0 0 [2, 3] [[7]] false 1) :=
  getJacobian_hasPattern exP exKv exKf 0 0 [2, 3] [[7]] 1 exP_wf exP_shapes (by decide)

example := C12_eliminated_jacobian exP exP_wf exBc exBc_canonical _ exP_pattern exBc_diagonal true 1 2 (by decide) (by decide)
example := C12_symmetric_stays_symmetric exP exP_wf exBc exBc_canonical _ exP_pattern exBc_diagonal
  (fun i j hi hj => by
    have : ∀ i < 3, ∀ j < 3, (getJacobian exP exKv exKf 0 0 [2, 3] [[7]] false 1).todense i j
      = (getJacobian exP exKv exKf 0 0 [2, 3] [[7]] false 1).todense j i := by decide
    exact this i hi j hj) 1 2 (by decide) (by decide)
example := C14_jvp_is_matvec exP exKv exKf 0 0 [2, 3] [[7]] 1 exP_wf exP_shapes (by decide) [5, 6, 7] 1 (by decide)
example := C14_vjp_is_rmatvec exP exKv exKf 0 0 [2, 3] [[7]] 1 exP_wf exP_shapes (by decide) [5, 6, 7] 1 (by decide)

end Verif.Props
