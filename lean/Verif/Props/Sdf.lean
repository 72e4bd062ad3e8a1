import Verif.Spec.Sdf
import Mathlib.Tactic.Ring
import Mathlib.Tactic.Linarith
import Mathlib.Tactic.FieldSimp
import Mathlib.Tactic.FinCases
import Mathlib.Data.List.GetD

/-!
# C98: solids as signed distance fields
-/

namespace Verif.Props

open Verif.Model Verif.Spec

section
variable {K : Type} [Field K] [LinearOrder K] [IsStrictOrderedRing K] {d : ℕ}

/-- **C98** (meaning). For every expression built with `|`, `&` and `-`, the field is negative exactly at the points inside the
corresponding combination of the solids, positive exactly at the points outside. -/
theorem C98_set_meaning {ι : Type} (f : ι → Sdf K d) (t : Csg ι) (p : Pt K d) :
    ((t.build f).call p < 0 ↔ t.inside (fun i q => (f i).call q < 0) (fun i q => 0 < (f i).call q) p) ∧
    (0 < (t.build f).call p ↔ t.outside (fun i q => (f i).call q < 0) (fun i q => 0 < (f i).call q) p) := by
  induction t with
  | solid i => exact ⟨Iff.rfl, Iff.rfl⟩
  | union a b iha ihb =>
    simp only [Csg.build, Sdf.union, Csg.inside, Csg.outside, min_lt_iff, lt_min_iff, iha.1, iha.2, ihb.1, ihb.2, and_self]
  | inter a b iha ihb =>
    simp only [Csg.build, Sdf.inter, Csg.inside, Csg.outside, max_lt_iff, lt_max_iff, iha.1, iha.2, ihb.1, ihb.2, and_self]
  | diff a b iha ihb =>
    simp only [Csg.build, Sdf.diff, Csg.inside, Csg.outside, max_lt_iff, lt_max_iff, iha.1, iha.2, neg_lt_zero, neg_pos, ihb.1,
      ihb.2, and_self]

theorem zipWith_map_both {α β γ δ : Type} (g : β → γ → δ) (u : α → β) (v : α → γ) (l : List α) :
    List.zipWith g (l.map u) (l.map v) = l.map fun x => g (u x) (v x) := by
  induction l with
  | nil => rfl
  | cons a l ih => simp [ih]

omit [IsStrictOrderedRing K] in
/-- **C98** (vectorised evaluation). If the solids evaluate arrays point by point, so does every expression over them. -/
theorem C98_evaluate {ι : Type} (f : ι → Sdf K d) (hf : ∀ i, PointwiseEval (f i)) (t : Csg ι) : PointwiseEval (t.build f) := by
  induction t with
  | solid i => exact hf i
  | union a b iha ihb =>
    intro ps
    simp only [Csg.build, Sdf.union, iha ps, ihb ps, zipWith_map_both]
  | inter a b iha ihb =>
    intro ps
    simp only [Csg.build, Sdf.inter, iha ps, ihb ps, zipWith_map_both]
  | diff a b iha ihb =>
    intro ps
    simp only [Csg.build, Sdf.diff, iha ps, ihb ps, List.map_map, zipWith_map_both]
    rfl

omit [IsStrictOrderedRing K] in
/-- **C98** (user-defined solids). A class that only defines `__call__` evaluates arrays point by point and has no default
bounds. -/
theorem C98_user_defined (g : Pt K d → K) :
    PointwiseEval (Sdf.ofCall g) ∧ (Sdf.ofCall g).bounds = .error .notImplemented := ⟨fun _ => rfl, rfl⟩

omit [Field K] [LinearOrder K] [IsStrictOrderedRing K] in
theorem bounds_do {a b : Except PyErr (Pt K d × Pt K d)} {g : Pt K d → Pt K d → Pt K d → Pt K d → Pt K d × Pt K d} {lo hi : Pt K d}
    (h : (do
      let (la, ha) ← a
      let (lb, hb) ← b
      Except.ok (g la ha lb hb)) = Except.ok (lo, hi)) :
    ∃ la ha lb hb, a = .ok (la, ha) ∧ b = .ok (lb, hb) ∧ g la ha lb hb = (lo, hi) := by
  cases a with
  | error e => cases h
  | ok x =>
    cases b with
    | error e => cases h
    | ok y => exact ⟨x.1, x.2, y.1, y.2, rfl, rfl, Except.ok.inj h⟩

omit [IsStrictOrderedRing K] in
/-- **C98** (bounds). If the default bounds of the solids contain them, the default bounds of every expression contain it, so
the surface extracted over the default bounds is not cut off. -/
theorem C98_bounds {ι : Type} (f : ι → Sdf K d) (hf : ∀ i, Bounded (f i)) (t : Csg ι) : Bounded (t.build f) := by
  induction t with
  | solid i => exact hf i
  | union a b iha ihb =>
    intro lo hi h p hp k
    obtain ⟨la, ha, lb, hb, e1, e2, e3⟩ := bounds_do (a := (a.build f).bounds) (b := (b.build f).bounds)
      (g := fun la ha lb hb => (fun k => min (la k) (lb k), fun k => max (ha k) (hb k))) h
    have hl := congrFun (congrArg Prod.fst e3) k
    have hh := congrFun (congrArg Prod.snd e3) k
    simp only at hl hh
    rw [← hl, ← hh]
    rcases min_lt_iff.1 hp with h' | h'
    · have := iha _ _ e1 p h' k
      exact ⟨(min_le_left _ _).trans this.1, this.2.trans (le_max_left _ _)⟩
    · have := ihb _ _ e2 p h' k
      exact ⟨(min_le_right _ _).trans this.1, this.2.trans (le_max_right _ _)⟩
  | inter a b iha ihb =>
    intro lo hi h p hp k
    obtain ⟨la, ha, lb, hb, e1, e2, e3⟩ := bounds_do (a := (a.build f).bounds) (b := (b.build f).bounds)
      (g := fun la ha lb hb => (fun k => max (la k) (lb k), fun k => min (ha k) (hb k))) h
    have hl := congrFun (congrArg Prod.fst e3) k
    have hh := congrFun (congrArg Prod.snd e3) k
    simp only at hl hh
    rw [← hl, ← hh]
    have h' := max_lt_iff.1 hp
    have u := iha _ _ e1 p h'.1 k
    have v := ihb _ _ e2 p h'.2 k
    exact ⟨max_le u.1 v.1, le_min u.2 v.2⟩
  | diff a b iha _ =>
    intro lo hi h p hp k
    exact iha lo hi h p (max_lt_iff.1 hp).1 k

/-- **C98** (distances). If the field of every solid changes by no more than the distance, so does the field of every expression;
then the field never exceeds the distance to a point inside. -/
theorem C98_never_overestimates {ι : Type} (dist : Pt K d → Pt K d → K) (hsymm : ∀ p q, dist p q = dist q p) (f : ι → Sdf K d)
    (hf : ∀ i, Lipschitz dist (f i)) (t : Csg ι) :
    Lipschitz dist (t.build f) ∧ ∀ p q, (t.build f).call q < 0 → (t.build f).call p < dist p q := by
  have key : Lipschitz dist (t.build f) := by
    induction t with
    | solid i => exact hf i
    | union a b iha ihb =>
      intro p q
      have h1 := iha p q
      have h2 := ihb p q
      simp only [Csg.build, Sdf.union]
      rcases min_cases ((a.build f).call q) ((b.build f).call q) with h | h <;> rw [h.1]
      · linarith [min_le_left ((a.build f).call p) ((b.build f).call p)]
      · linarith [min_le_right ((a.build f).call p) ((b.build f).call p)]
    | inter a b iha ihb =>
      intro p q
      have h1 := iha p q
      have h2 := ihb p q
      simp only [Csg.build, Sdf.inter]
      rcases max_cases ((a.build f).call p) ((b.build f).call p) with h | h <;> rw [h.1]
      · linarith [le_max_left ((a.build f).call q) ((b.build f).call q)]
      · linarith [le_max_right ((a.build f).call q) ((b.build f).call q)]
    | diff a b iha ihb =>
      intro p q
      have h1 := iha p q
      have h2 := ihb q p
      rw [hsymm q p] at h2
      simp only [Csg.build, Sdf.diff]
      rcases max_cases ((a.build f).call p) (-(b.build f).call p) with h | h <;> rw [h.1]
      · linarith [le_max_left ((a.build f).call q) (-(b.build f).call q)]
      · linarith [le_max_right ((a.build f).call q) (-(b.build f).call q)]
  refine ⟨key, fun p q hq => ?_⟩
  have := key p q
  linarith

theorem flatMap_getD {α β : Type} (l : List α) (g : α → List β) (m : ℕ) (hg : ∀ x ∈ l, (g x).length = m) (i j : ℕ) (hi : i < l.length)
    (hj : j < m) (x0 : β) : (l.flatMap g).getD (i * m + j) x0 = (g l[i]).getD j x0 := by
  induction l generalizing i with
  | nil => simp at hi
  | cons a l ih =>
    rw [List.flatMap_cons]
    cases i with
    | zero =>
      rw [List.getD_append _ _ _ _ (by rw [hg a (by simp)]; omega)]
      simp
    | succ i =>
      have h1 : (g a).length = m := hg a (by simp)
      rw [List.getD_append_right _ _ _ _ (by rw [h1]; nlinarith)]
      have : (i + 1) * m + j - (g a).length = i * m + j := by
        rw [h1, Nat.succ_mul]
        omega
      rw [this, ih (fun x hx => hg x (by simp [hx])) i (by simpa using hi)]
      simp

omit [LinearOrder K] [IsStrictOrderedRing K] in
theorem linspace_entry (a b : K) (n i : ℕ) (hi : i < (linspace a b n).length) :
    (linspace a b n)[i] = a + (i : K) * ((b - a) / ((n - 1 : ℕ) : K)) := by
  simp [linspace]

omit [LinearOrder K] [IsStrictOrderedRing K] in
theorem linspace_length' (a b : K) (n : ℕ) : (linspace a b n).length = n := by simp [linspace]

theorem flatMap_length_const {α β : Type} (l : List α) (g : α → List β) (m : ℕ) (hg : ∀ x ∈ l, (g x).length = m) :
    (l.flatMap g).length = l.length * m := by
  induction l with
  | nil => simp
  | cons a l ih =>
    rw [List.flatMap_cons, List.length_append, hg a (by simp), ih fun x hx => hg x (by simp [hx]), List.length_cons, Nat.succ_mul,
      Nat.add_comm]

omit [LinearOrder K] [IsStrictOrderedRing K] in
/-- **C98** (sampling). The entry `[i, j, k]` of the sampled volume is the field at the position that is given to a surface vertex
found at the grid index `(i, j, k)`, so the extracted surface is placed where the field was sampled. -/
theorem C98_sampled_positions (f : Sdf K 3) (hf : PointwiseEval f) (lo hi : Pt K 3) (bounds : Option (Pt K 3 × Pt K 3))
    (hb : bounds = some (lo, hi) ∨ bounds = none ∧ f.bounds = .ok (lo, hi)) (padding : K) (res : ℕ) (hr : 2 ≤ res) :
    ∃ v, f.volume bounds padding res = .ok v ∧ ∀ i j k, i < res → j < res → k < res →
      v i j k = f.call (vertexPosition lo hi padding res ![(i : K), (j : K), (k : K)]) := by
  have hvol : ∃ v, f.volume bounds padding res = .ok v ∧
      v = fun i j k => (f.evaluate (sampleGrid lo hi padding res)).getD ((i * res + j) * res + k) 0 := by
    rcases hb with rfl | ⟨rfl, h⟩
    · exact ⟨_, rfl, rfl⟩
    · refine ⟨_, ?_, rfl⟩
      simp only [Sdf.volume, h]
      rfl
  obtain ⟨v, hv, rfl⟩ := hvol
  refine ⟨_, hv, ?_⟩
  intro i j k hi' hj hk
  rw [hf]
  have hlen : (sampleGrid lo hi padding res).length = res * (res * res) := by
    unfold sampleGrid
    simp only
    rw [flatMap_length_const _ _ (res * res), linspace_length']
    intro x _
    rw [flatMap_length_const _ _ res, linspace_length']
    intro y _
    rw [List.length_map, linspace_length']
  have hidx : (i * res + j) * res + k = i * (res * res) + (j * res + k) := by ring
  have hjk : j * res + k < res * res := by nlinarith
  have hlt : (i * res + j) * res + k < (sampleGrid lo hi padding res).length := by
    rw [hlen, hidx]
    nlinarith
  rw [List.getD_eq_getElem _ _ (by rw [List.length_map]; exact hlt), List.getElem_map]
  congr 1
  have hgrid : (sampleGrid lo hi padding res).getD ((i * res + j) * res + k) (fun _ => 0) =
      ![lo 0 - padding + (i : K) * ((hi 0 + padding - (lo 0 - padding)) / ((res - 1 : ℕ) : K)),
        lo 1 - padding + (j : K) * ((hi 1 + padding - (lo 1 - padding)) / ((res - 1 : ℕ) : K)),
        lo 2 - padding + (k : K) * ((hi 2 + padding - (lo 2 - padding)) / ((res - 1 : ℕ) : K))] := by
    rw [hidx]
    unfold sampleGrid
    simp only
    rw [flatMap_getD _ _ (res * res) _ _ _ (by rw [linspace_length']; exact hi') hjk]
    · rw [flatMap_getD _ _ res _ _ _ (by rw [linspace_length']; exact hj) hk]
      · rw [List.getD_eq_getElem _ _ (by rw [List.length_map, linspace_length']; exact hk), List.getElem_map]
        simp only [linspace_entry]
      · intro y _
        rw [List.length_map, linspace_length']
    · intro x _
      rw [flatMap_length_const _ _ res, linspace_length']
      intro y _
      rw [List.length_map, linspace_length']
  rw [List.getD_eq_getElem _ _ hlt] at hgrid
  rw [hgrid]
  have hc : ((res - 1 : ℕ) : K) = (res : K) - 1 := by
    rw [Nat.cast_sub (by omega)]
    simp
  rw [hc]
  funext c
  fin_cases c <;> simp [vertexPosition] <;> ring

/-- **C98** (vertices). A vertex at a fractional index within the grid is placed inside the padded box; indices `0` and
`resolution - 1` are its faces. -/
theorem C98_vertices_in_box (lo hi : Pt K 3) (padding : K) (res : ℕ) (hr : 2 ≤ res) (hbox : ∀ k, lo k - padding ≤ hi k + padding)
    (x : Pt K 3) (hx : ∀ k, 0 ≤ x k ∧ x k ≤ (res : K) - 1) (k : Fin 3) :
    (lo k - padding ≤ vertexPosition lo hi padding res x k ∧ vertexPosition lo hi padding res x k ≤ hi k + padding) ∧
    (x k = 0 → vertexPosition lo hi padding res x k = lo k - padding) ∧
    (x k = (res : K) - 1 → vertexPosition lo hi padding res x k = hi k + padding) := by
  have h1 : (2 : K) ≤ (res : K) := by exact_mod_cast hr
  have h2 : (0 : K) < (res : K) - 1 := by linarith
  have hb := hbox k
  have hs : 0 ≤ ((hi k + padding) - (lo k - padding)) / ((res : K) - 1) := div_nonneg (by linarith) h2.le
  have hm : ((res : K) - 1) * (((hi k + padding) - (lo k - padding)) / ((res : K) - 1)) = (hi k + padding) - (lo k - padding) := by
    field_simp
  unfold vertexPosition
  refine ⟨⟨?_, ?_⟩, ?_, ?_⟩
  · have := mul_nonneg (hx k).1 hs
    linarith
  · have := mul_le_mul_of_nonneg_right (hx k).2 hs
    linarith
  · intro h
    rw [h]
    ring
  · intro h
    rw [h, hm]
    ring

omit [IsStrictOrderedRing K] [LinearOrder K] in
/-- **C98** (default size of volume elements, violated). The documentation gives `diagonal / resolution` as the default; the size
passed to gmsh is twice that. -/
theorem C98_default_size_doubled [CharZero K] (diag : K) (hd : diag ≠ 0) (res : ℕ) (hr : res ≠ 0) :
    volumeMeshSize none diag res = 2 * (diag / res) ∧ volumeMeshSize none diag res ≠ diag / res := by
  have hr' : (res : K) ≠ 0 := Nat.cast_ne_zero.2 hr
  have h : diag / (res : K) ≠ 0 := div_ne_zero hd hr'
  have e : volumeMeshSize none diag res = 2 * (diag / res) := by
    simp only [volumeMeshSize, Option.getD_none]
    ring
  refine ⟨e, ?_⟩
  rw [e]
  intro h'
  apply h
  have : diag / (res : K) = 2 * (diag / res) - diag / res := by ring
  rw [this, h', sub_self]

end

/-- **C98** (`from_vtk`). A missing field is a `KeyError`; a file without a supported cell block is a `ValueError`; otherwise the
named field and the first supported block are used. -/
theorem C98_from_vtk {α β : Type} (pointData : List (String × α)) (blocks : List (String × β)) (name : String) :
    ((∀ x ∈ pointData, x.1 ≠ name) → fromVtk pointData blocks name = .error .keyError) ∧
    ((∃ x ∈ pointData, x.1 = name) → (∀ b ∈ blocks, vtkToFeax b.1 = none) → fromVtk pointData blocks name = .error .valueError) ∧
    (∀ pre x post skip b t rest, pointData = pre ++ x :: post → (∀ y ∈ pre, y.1 ≠ name) → x.1 = name →
      blocks = skip ++ b :: rest → (∀ y ∈ skip, vtkToFeax y.1 = none) → vtkToFeax b.1 = some t →
      fromVtk pointData blocks name = .ok (x.2, t, b.2)) := by
  refine ⟨?_, ?_, ?_⟩
  · intro h
    have : (pointData.find? fun p => p.1 == name) = none := by
      rw [List.find?_eq_none]
      intro x hx
      simpa using h x hx
    simp only [fromVtk, this]
  · rintro ⟨x, hx, rfl⟩ hb
    obtain ⟨y, hy⟩ : ∃ y, (pointData.find? fun p => p.1 == x.1) = some y := by
      rw [← Option.isSome_iff_exists, List.find?_isSome]
      exact ⟨x, hx, by simp⟩
    have : (blocks.findSome? fun b => (vtkToFeax b.1).map fun t => (t, b.2)) = none := by
      rw [List.findSome?_eq_none_iff]
      intro b hb'
      rw [hb b hb', Option.map_none]
    simp only [fromVtk, hy, this]
  · intro pre x post skip b t rest e1 h1 h2 e2 h3 h4
    have f1 : (pointData.find? fun p => p.1 == name) = some x := by
      rw [e1, List.find?_append]
      have : (pre.find? fun p => p.1 == name) = none := by
        rw [List.find?_eq_none]
        intro y hy
        simpa using h1 y hy
      rw [this]
      simp [h2]
    have f2 : (blocks.findSome? fun b => (vtkToFeax b.1).map fun t => (t, b.2)) = some (t, b.2) := by
      rw [e2, List.findSome?_append]
      have : (skip.findSome? fun b => (vtkToFeax b.1).map fun t => (t, b.2)) = none := by
        rw [List.findSome?_eq_none_iff]
        intro y hy
        rw [h3 y hy, Option.map_none]
      rw [this]
      simp [h4]
    simp only [fromVtk, f1, f2]

/-- Two overlapping slabs `|x| < 1` and `|x - 1| < 1`, in three dimensions. -/
def exSlab (c : ℚ) : Sdf ℚ 3 :=
  { call := fun p => max (c - 1 - p 0) (p 0 - c - 1), evaluate := fun ps => ps.map fun p => max (c - 1 - p 0) (p 0 - c - 1),
    bounds := .ok (![c - 1, -1, -1], ![c + 1, 1, 1]) }

/-- `(A | B) - (A & B)`: inside at `-1/2` and `3/2`, outside at `1/2`. -/
example :
    let t : Csg ℕ := .diff (.union (.solid 0) (.solid 1)) (.inter (.solid 0) (.solid 1))
    let f := t.build fun i : ℕ => exSlab i
    f.call ![-1 / 2, 0, 0] < 0 ∧ 0 < f.call ![1 / 2, 0, 0] ∧ f.call ![3 / 2, 0, 0] < 0 ∧
      f.evaluate [![-1 / 2, 0, 0], ![1 / 2, 0, 0]] = [-1 / 2, 1 / 2] := by
  refine ⟨?_, ?_, ?_, ?_⟩ <;> decide +kernel

example (t : Csg ℕ) : PointwiseEval (t.build fun i : ℕ => exSlab i) := C98_evaluate _ (fun _ _ => rfl) t

/-- The slabs are `1`-Lipschitz in the first coordinate. -/
example (t : Csg ℕ) : Lipschitz (fun p q => |p 0 - q 0|) (t.build fun i : ℕ => exSlab i) :=
  (C98_never_overestimates _ (fun p q => abs_sub_comm _ _) (fun i : ℕ => exSlab i) (fun i p q => by
    simp only [exSlab]
    have h1 := le_abs_self (p 0 - q 0)
    have h2 := neg_abs_le (p 0 - q 0)
    rcases max_cases ((i : ℚ) - 1 - p 0) (p 0 - i - 1) with h | h <;> rw [h.1]
    · linarith [le_max_left ((i : ℚ) - 1 - q 0) (q 0 - i - 1)]
    · linarith [le_max_right ((i : ℚ) - 1 - q 0) (q 0 - i - 1)]) t).1

/-- A solid of the unit ball for the maximum norm has the bounds of the cube. -/
def exCube : Sdf ℚ 3 :=
  { call := fun p => max (max |p 0| |p 1|) |p 2| - 1, evaluate := fun ps => ps.map fun p => max (max |p 0| |p 1|) |p 2| - 1,
    bounds := .ok (fun _ => -1, fun _ => 1) }

theorem exCube_bounded : Bounded exCube := by
  intro lo hi h p hp k
  have e := Except.ok.inj h
  have e1 := congrFun (congrArg Prod.fst e) k
  have e2 := congrFun (congrArg Prod.snd e) k
  simp only at e1 e2
  rw [← e1, ← e2]
  have : max (max |p 0| |p 1|) |p 2| < 1 := by
    have h' : max (max |p 0| |p 1|) |p 2| - 1 < 0 := hp
    linarith
  have h3 := max_lt_iff.1 this
  have h4 := max_lt_iff.1 h3.1
  have : |p k| < 1 := by fin_cases k <;> [exact h4.1; exact h4.2; exact h3.2]
  exact ⟨(abs_lt.1 this).1.le, (abs_lt.1 this).2.le⟩

example : Bounded ((Csg.diff (.solid ()) (.solid ())).build fun _ => exCube) := C98_bounds _ (fun _ => exCube_bounded) _

example : ∃ v, exCube.volume none 1 3 = .ok v ∧ v 1 1 1 = -1 ∧ v 0 1 1 = 1 := by
  refine ⟨_, rfl, ?_⟩
  decide +kernel

example : fromVtk [("u", 1), ("density", 2)] [("vertex", 0), ("tetra", 5), ("hexahedron", 6)] "density" = .ok (2, "TET4", 5) := by
  decide +kernel

end Verif.Props
