import Verif.Props.BC
import Verif.Model.BcInput

/-!
# What a user writes in a boundary specification (C149)
-/

namespace Verif.Props

open Verif Verif.Model

set_option linter.unusedSectionVars false

/-! ## The meaning of a specification, in the words of the documentation -/

namespace Spec149

variable {Pt R : Type*}

/-- The component argument names component `c` of a field: the number itself, a letter, or everything. -/
def Names : PyComp → ℕ → Prop
  | .int z, c => z = c
  | .npInt z, c => z = c
  | .str s, c => s.toLower = "all" ∨ (s.toLower = "x" ∧ c = 0) ∨ (s.toLower = "y" ∧ c = 1) ∨ (s.toLower = "z" ∧ c = 2)

/-- The predicate the user wrote: a parameter with a default has its default. -/
def holds : PyLoc Pt R → Pt → ℕ → Bool
  | .point f, pt, _ => f pt
  | .pointNode f, pt, k => f pt k
  | .defaulted f d, pt, _ => f pt d
  | .method f, pt, _ => f pt
  | .noCode f, pt, _ => f pt
  | .arity, _, _ => false

/-- The value the user prescribes at a point. -/
def valueAt [Zero R] : PyValue Pt R → Pt → R
  | .number c, _ => c
  | .arrayScalar c, _ => c
  | .fn f, pt => (f pt).headD 0

/-- The specification constrains component `c` of node `k` (at `pt`) of variable `i`. -/
def Wants (s : RawSpec Pt R) (i k c : ℕ) (pt : Pt) : Prop :=
  (s.variableIndex = none ∨ s.variableIndex = some (i : ℤ)) ∧ Names s.component c ∧ holds s.location pt k = true

/-- Specifications of the documented kinds: a function of the point, or of the point and the node number, a Python number or
a function with one result, and a component that is not a negative NumPy integer. -/
structure Documented (s : RawSpec Pt R) : Prop where
  location : (∃ f, s.location = .point f) ∨ ∃ f, s.location = .pointNode f
  value : (∃ c, s.value = .number c) ∨ ∃ f, s.value = .fn f ∧ ∀ pt, (f pt).length = 1
  component : ∀ z, s.component = .npInt z → 0 ≤ z

/-- A component argument that is no component: a negative Python integer or an unknown string. -/
def NoComponent : PyComp → Prop
  | .int z => z < 0
  | .npInt _ => False
  | .str s => s.toLower ≠ "all" ∧ s.toLower ≠ "x" ∧ s.toLower ≠ "y" ∧ s.toLower ≠ "z"

end Spec149

open Spec149

/-! ## Normal form -/

section normal
variable {Pt R : Type*} [NatCast R] [Zero R]

/-- The specification object in the normal form of `Verif.Model.BC`. -/
def normalOf (s : SpecObj Pt R) : BCSpec Pt R where
  location := match s.location with
    | .point f => .one f
    | .pointNode f => .two f
    | _ => .bad
  component := match s.component with
    | .all => .all
    | .idx z => .idx z.toNat
  value := valueAt s.value
  variableIndex := s.variableIndex

/-- Objects made from documented specifications. -/
structure DocObj (s : SpecObj Pt R) : Prop where
  location : (∃ f, s.location = .point f) ∨ ∃ f, s.location = .pointNode f
  value : (∃ c, s.value = .number c) ∨ ∃ f, s.value = .fn f ∧ ∀ pt, (f pt).length = 1
  component : ∀ z, s.component = .idx z → 0 ≤ z

/-- Rows as integers, and values apart. -/
def splitEntries (es : List (ℕ × R)) : List ℤ × List R := (es.map fun e => (e.1 : ℤ), es.map (·.2))

theorem split_flatten (ls : List (List (ℕ × R))) :
    splitEntries ls.flatten =
      (((ls.map splitEntries).map (·.1)).flatten, ((ls.map splitEntries).map (·.2)).flatten) := by
  unfold splitEntries
  rw [List.map_flatten, List.map_flatten, List.map_map, List.map_map]
  rfl

theorem forCollect_map {α β γ ε : Type*} (f : α → Except ε γ) (g : α → Except ε β) (φ : β → γ) (l : List α)
    (h : ∀ x ∈ l, f x = (g x).map φ) : forCollect f l = (forCollect g l).map (List.map φ) := by
  induction l with
  | nil => rfl
  | cons x xs ih =>
    simp only [forCollect]
    rw [h x (by simp), ih fun y hy => h y (by simp [hy])]
    cases g x with
    | error e => rfl
    | ok y => cases forCollect g xs <;> rfl

theorem forCollect_const {α β ε : Type*} {b : β} (f : α → Except ε β) (l : List α) (h : ∀ x ∈ l, f x = .ok b) :
    forCollect f l = .ok (l.map fun _ => b) := by
  induction l with
  | nil => rfl
  | cons x xs ih =>
    simp only [forCollect]
    rw [h x (by simp), ih fun y hy => h y (by simp [hy])]
    rfl

theorem forCollect_of_map {α β γ δ ε : Type*} (f : α → Except ε γ) (g : β → Except ε δ) (φ : δ → γ) (ψ : α → β) (l : List α)
    (h : ∀ x ∈ l, f x = (g (ψ x)).map φ) : forCollect f l = (forCollect g (l.map ψ)).map (List.map φ) := by
  induction l with
  | nil => rfl
  | cons x xs ih =>
    simp only [forCollect, List.map_cons]
    rw [h x (by simp), ih fun y hy => h y (by simp [hy])]
    cases g (ψ x) with
    | error e => rfl
    | ok y => cases forCollect g (xs.map ψ) <;> rfl

theorem values_doc {v : PyValue Pt R} (hv : (∃ c, v = .number c) ∨ ∃ f, v = .fn f ∧ ∀ pt, (f pt).length = 1) (sel : List Pt) :
    objValues v sel = .ok (sel.map (valueAt v)) := by
  rcases hv with ⟨c, rfl⟩ | ⟨f, rfl, hf⟩
  · rfl
  · simp only [objValues]
    congr 1
    induction sel with
    | nil => rfl
    | cons x xs ih =>
      rw [List.map_cons, List.flatten_cons, ih, List.map_cons]
      obtain ⟨y, hy⟩ := List.length_eq_one_iff.mp (hf x)
      simp [valueAt, hy]

theorem entries_doc {s : SpecObj Pt R} (hs : DocObj s) (vec off : ℕ) (pts : List Pt) (comp : ℕ) :
    objEntries s vec off pts comp = (componentEntries (normalOf s) vec off pts comp).map splitEntries := by
  obtain ⟨loc, cmp, val, vi⟩ := s
  obtain ⟨hl, hv, -⟩ := hs
  simp only at hl hv
  rcases hl with ⟨f, rfl⟩ | ⟨f, rfl⟩
  all_goals
    simp only [objEntries, objLocate, componentEntries, normalOf, Except.map, splitEntries]
    split_ifs with h
    · rw [List.isEmpty_iff] at h
      rw [h]; rfl
    · rw [values_doc hv]
      simp only [List.map_map]
      congr 2

theorem components_doc {s : SpecObj Pt R} (hs : DocObj s) (ind vec : ℕ) :
    objComponents s ind vec = (specComponents (normalOf s) ind vec).map fun k : ℕ => (k : ℤ) := by
  obtain ⟨loc, cmp, val, vi⟩ := s
  obtain ⟨-, -, hc⟩ := hs
  simp only at hc
  have hidx : ∀ z : ℤ, 0 ≤ z → (if z ≥ (vec : ℤ) then [] else [z]) =
      (if z.toNat ≥ vec then [] else [z.toNat]).map fun k : ℕ => (k : ℤ) := by
    intro z hz
    by_cases h : z ≥ (vec : ℤ)
    · rw [if_pos h, if_pos (by omega)]; rfl
    · rw [if_neg h, if_neg (by omega)]
      simp [hz]
  cases vi with
  | none =>
    cases cmp with
    | all => simp [objComponents, specComponents, normalOf]
    | idx z =>
      simp only [objComponents, specComponents, normalOf, ne_eq, not_true_eq_false, false_and, if_false]
      exact hidx z (hc z rfl)
  | some y =>
    by_cases h : y = (ind : ℤ)
    · subst h
      cases cmp with
      | all => simp [objComponents, specComponents, normalOf]
      | idx z =>
        simp only [objComponents, specComponents, normalOf, ne_eq, not_true_eq_false, and_false, if_false]
        exact hidx z (hc z rfl)
    · simp [objComponents, specComponents, normalOf, h]

theorem onVar_doc {s : SpecObj Pt R} (hs : DocObj s) (ind : ℕ) (v : Var) (off : ℕ) (pts : List Pt) :
    objOnVar ind v off pts s = (specEntries ind v off pts (normalOf s)).map splitEntries := by
  unfold objOnVar specEntries
  rw [components_doc hs]
  have h : forCollect (objEntries s v.vec off pts) ((specComponents (normalOf s) ind v.vec).map fun k : ℕ => (k : ℤ)) =
      (forCollect (componentEntries (normalOf s) v.vec off pts) (specComponents (normalOf s) ind v.vec)).map
        (List.map splitEntries) := by
    induction specComponents (normalOf s) ind v.vec with
    | nil => rfl
    | cons x xs ih =>
      simp only [forCollect, List.map_cons]
      rw [entries_doc hs, ih]
      cases componentEntries (normalOf s) v.vec off pts x with
      | error e => rfl
      | ok y => cases forCollect (componentEntries (normalOf s) v.vec off pts) xs <;> rfl
  rw [h]
  cases forCollect (componentEntries (normalOf s) v.vec off pts) (specComponents (normalOf s) ind v.vec) with
  | error e => rfl
  | ok ls => simp only [Except.map]; rw [split_flatten]

theorem collect_doc (vars : List Var) (pts : List (List Pt)) (specs : List (SpecObj Pt R)) (hs : ∀ s ∈ specs, DocObj s) :
    objCollect vars pts specs = (collectEntries vars pts (specs.map normalOf)).map splitEntries := by
  unfold objCollect collectEntries
  rw [forCollect_map _ (fun (q : ((Var × ℕ) × List Pt) × ℕ) =>
      match forCollect (specEntries q.2 q.1.1.1 q.1.1.2 q.1.2) (specs.map normalOf) with
      | .error e => .error e
      | .ok ls => .ok ls.flatten) splitEntries]
  · cases forCollect (fun (q : ((Var × ℕ) × List Pt) × ℕ) =>
      match forCollect (specEntries q.2 q.1.1.1 q.1.1.2 q.1.2) (specs.map normalOf) with
      | .error e => .error e
      | .ok ls => .ok ls.flatten) (((vars.zip (offsets vars)).zip pts).zipIdx) with
    | error e => rfl
    | ok ls => simp only [Except.map]; rw [split_flatten]
  · intro q _
    rw [forCollect_of_map _ (specEntries q.2 q.1.1.1 q.1.1.2 q.1.2) splitEntries normalOf specs
      (fun s h => onVar_doc (hs s h) _ _ _ _)]
    cases forCollect (specEntries q.2 q.1.1.1 q.1.1.2 q.1.2) (specs.map normalOf) with
    | error e => rfl
    | ok ls => simp only [Except.map]; rw [split_flatten]

end normal

/-! ## Sorting integers that are natural numbers -/

theorem insertionSort_iff {α : Type*} (r s : α → α → Prop) [DecidableRel r] [DecidableRel s] (h : ∀ a b, r a b ↔ s a b)
    (l : List α) : l.insertionSort r = l.insertionSort s := by
  have : r = s := by funext a b; exact propext (h a b)
  subst this
  congr

theorem getD_cast (xs : List ℕ) (i : ℕ) : (xs.map fun k : ℕ => (k : ℤ)).getD i 0 = ((xs.getD i 0 : ℕ) : ℤ) := by
  rw [← Nat.cast_zero, List.getD_map]

theorem argsortInt_cast (xs : List ℕ) : argsortInt (xs.map fun k : ℕ => (k : ℤ)) = argsort xs := by
  unfold argsortInt argsort
  rw [List.length_map]
  apply insertionSort_iff
  intro a b
  rw [getD_cast, getD_cast, Nat.cast_le]

theorem gather_cast (xs : List ℕ) (idx : List ℕ) :
    gather 0 (xs.map fun k : ℕ => (k : ℤ)) idx = (gather 0 xs idx).map fun k : ℕ => (k : ℤ) := by
  unfold gather
  rw [List.map_map]
  exact List.map_congr_left fun i _ => getD_cast xs i

theorem isNewInt_cast (xs : List ℕ) : isNewInt (xs.map fun k : ℕ => (k : ℤ)) = isNew xs := by
  cases xs with
  | nil => rfl
  | cons x xs =>
    simp only [List.map_cons, isNewInt, isNew]
    rw [← List.map_cons (f := fun k : ℕ => (k : ℤ)), ← List.map_dropLast, List.zipWith_map]
    simp

theorem compress_map_fn {α β : Type*} (f : α → β) (xs : List α) (m : List Bool) : compress (xs.map f) m = (compress xs m).map f := by
  unfold compress
  induction xs generalizing m with
  | nil => rfl
  | cons x xs ih =>
    cases m with
    | nil => rfl
    | cons b m =>
      cases b
      · simpa using ih m
      · simpa using ih m

theorem uniqueInt_cast (xs : List ℕ) : uniqueInt (xs.map fun k : ℕ => (k : ℤ)) =
    ((uniqueWithIndex xs).1.map fun k : ℕ => (k : ℤ), (uniqueWithIndex xs).2) := by
  unfold uniqueInt uniqueWithIndex
  simp only [argsortInt_cast, gather_cast, isNewInt_cast, compress_map_fn]

theorem mask_cast (rows : List ℕ) (acc : List Bool) :
    (rows.map fun k : ℕ => (k : ℤ)).foldl (fun acc z => setAtInt acc z true) acc =
      scatterSet acc rows (rows.map fun _ => true) := by
  unfold scatterSet
  induction rows generalizing acc with
  | nil => rfl
  | cons r rows ih =>
    simp only [List.map_cons, List.foldl_cons, List.zip_cons_cons]
    rw [← ih]
    congr 1

/-- The integer condition of a condition with natural rows. -/
def IntBC.ofBC {R : Type*} (bc : DirichletBC R) : IntBC R := ⟨bc.rows.map fun k : ℕ => (k : ℤ), bc.mask, bc.vals, bc.totalDofs⟩

theorem createObj_doc {Pt R : Type*} [NatCast R] [Zero R] (vars : List Var) (pts : List (List Pt)) (specs : List (SpecObj Pt R))
    (hs : ∀ s ∈ specs, DocObj s) : createObj vars pts specs = (createBC vars pts (specs.map normalOf)).map IntBC.ofBC := by
  unfold createObj createBC
  simp only
  by_cases h : specs = []
  · subst h; rfl
  · rw [if_neg (by simpa using h), if_neg (by simpa using h), collect_doc vars pts specs hs]
    cases collectEntries vars pts (specs.map normalOf) with
    | error e => rfl
    | ok es =>
      simp only [Except.map, splitEntries, IntBC.ofBC]
      have : (es.map fun e => (e.1 : ℤ)) = (es.map (·.1)).map fun k : ℕ => (k : ℤ) := by rw [List.map_map]; rfl
      rw [this]
      simp only [argsortInt_cast, gather_cast, uniqueInt_cast, mask_cast]

/-! ## C149 -/

section main
variable {Pt R : Type*} [NatCast R] [Zero R]

theorem postInit_ok {r : PyComp} (h : ¬ NoComponent r) : ∃ c, postInit r = .ok c := by
  cases r with
  | npInt z => exact ⟨_, rfl⟩
  | int z =>
    simp only [NoComponent] at h
    exact ⟨.idx z, by simp only [postInit]; rw [if_neg h]⟩
  | str s =>
    simp only [NoComponent, ne_eq, not_and_or, not_not] at h
    unfold postInit
    simp only
    split_ifs <;> simp_all

theorem postInit_error {r : PyComp} (h : NoComponent r) : postInit r = .error .valueError := by
  cases r with
  | npInt z => exact absurd h id
  | int z =>
    simp only [NoComponent] at h
    simp only [postInit]; rw [if_pos h]
  | str s =>
    obtain ⟨h1, h2, h3, h4⟩ := h
    simp [postInit, h1, h2, h3, h4]

/-- **C149** (refusal): a specification is refused, with `ValueError`, exactly when its component is a negative Python
integer or a string other than x, y, z and all (in any case). -/
theorem C149_refused (r : RawSpec Pt R) :
    (∀ e, mkSpec r = .error e ↔ e = .valueError ∧ NoComponent r.component) := by
  intro e
  unfold mkSpec
  by_cases h : NoComponent r.component
  · rw [postInit_error h]
    simp only [Except.error.injEq, h, and_true]
    exact eq_comm
  · obtain ⟨c, hc⟩ := postInit_ok h
    rw [hc]
    simp [h]

theorem names_of_postInit {r : PyComp} {o : IntComp} (h : postInit r = .ok o) (hnn : ∀ z, r = .npInt z → 0 ≤ z) (c : ℕ) :
    ((match o with | .all => Comp.all | .idx z => .idx z.toNat) = .all ∨
      (match o with | .all => Comp.all | .idx z => .idx z.toNat) = .idx c) ↔ Names r c := by
  cases r with
  | npInt z =>
    have := hnn z rfl
    simp only [postInit, Except.ok.injEq] at h
    subst h
    simp only [Names, reduceCtorEq, false_or, Comp.idx.injEq]
    omega
  | int z =>
    simp only [postInit] at h
    split_ifs at h with hz
    simp only [Except.ok.injEq] at h
    subst h
    simp only [Names, reduceCtorEq, false_or, Comp.idx.injEq]
    omega
  | str s =>
    simp only [postInit] at h
    simp only [Names]
    generalize s.toLower = t at h
    split_ifs at h with h1 h2 h3 h4
    all_goals
      simp only [Except.ok.injEq] at h
      subst h
      subst_vars
      simp [eq_comm]

/-- The objects of a list of documented specifications. -/
theorem mkSpecs_doc (raws : List (RawSpec Pt R)) (hd : ∀ s ∈ raws, Documented s) (hn : ∀ s ∈ raws, ¬ NoComponent s.component) :
    ∃ objs, forCollect mkSpec raws = .ok objs ∧ (∀ o ∈ objs, DocObj o) ∧
      List.Forall₂ (fun r o => o.location = r.location ∧ o.value = r.value ∧ o.variableIndex = r.variableIndex ∧
        postInit r.component = .ok o.component) raws objs := by
  induction raws with
  | nil => exact ⟨[], rfl, by simp, .nil⟩
  | cons r rs ih =>
    obtain ⟨objs, h1, h2, h3⟩ := ih (fun s h => hd s (by simp [h])) (fun s h => hn s (by simp [h]))
    obtain ⟨c, hc⟩ := postInit_ok (hn r (by simp))
    have hr := hd r (by simp)
    refine ⟨⟨r.location, c, r.value, r.variableIndex⟩ :: objs, ?_, ?_, ?_⟩
    · simp only [forCollect, mkSpec, hc]
      rw [h1]
    · intro o ho
      rcases List.mem_cons.mp ho with rfl | ho
      · refine ⟨hr.location, hr.value, fun z hz => ?_⟩
        simp only at hz
        subst hz
        have h4 := hr.component
        cases hcomp : r.component with
        | npInt y =>
          rw [hcomp] at hc
          simp only [postInit, Except.ok.injEq, IntComp.idx.injEq] at hc
          subst hc
          exact h4 _ hcomp
        | int y =>
          rw [hcomp] at hc
          simp only [postInit] at hc
          split_ifs at hc with hy
          simp only [Except.ok.injEq, IntComp.idx.injEq] at hc
          omega
        | str s =>
          rw [hcomp] at hc
          simp only [postInit] at hc
          split_ifs at hc <;> simp at hc <;> omega
      · exact h2 o ho
    · exact .cons ⟨rfl, rfl, rfl, hc⟩ h3

theorem selects_doc {r : RawSpec Pt R} {o : SpecObj Pt R} (hd : Documented r) (hl : o.location = r.location)
    (hi : o.variableIndex = r.variableIndex) (hc : postInit r.component = .ok o.component) (i k c : ℕ) (pt : Pt) :
    Spec.selects (normalOf o) i k c pt = true ↔ Wants r i k c pt := by
  have hcomp := names_of_postInit hc hd.component c
  unfold Spec.selects Wants
  rw [Bool.and_eq_true, Bool.and_eq_true, Bool.or_eq_true, Bool.or_eq_true, ← hcomp, ← hi, and_assoc]
  refine and_congr ?_ (and_congr ?_ ?_)
  · simp [normalOf]
  · simp [normalOf]
  · rcases hd.location with ⟨f, hf⟩ | ⟨f, hf⟩
    · simp [normalOf, Spec.located, hl, hf, holds]
    · simp [normalOf, Spec.located, hl, hf, holds]

theorem find_forall₂ {A B : Type*} {Q : A → B → Prop} {p : A → Bool} {q : B → Bool} {l : List A} {m : List B}
    (h : List.Forall₂ Q l m) (hpq : ∀ a b, a ∈ l → Q a b → p a = q b) (a : A) (ha : l.find? p = some a) :
    ∃ b, m.find? q = some b ∧ Q a b := by
  induction h with
  | nil => simp at ha
  | @cons x y l m hxy _ ih =>
    rw [List.find?_cons] at ha
    rw [List.find?_cons, ← hpq x y (by simp) hxy]
    cases hp : p x with
    | true => simp only [hp, Option.some.injEq] at ha; subst ha; exact ⟨y, rfl, hxy⟩
    | false =>
      simp only [hp] at ha
      exact ih (fun a b ha' hab => hpq a b (by simp [ha']) hab) ha

open Classical in
/-- **C149** (partial): for specifications of the documented kinds the compiled condition is the one the user describes. It
has one row for every degree of freedom some specification names and no other, in increasing order, the mask agrees, and the
value of a row is the one prescribed by the first specification that names it. Missing: functions with default arguments,
negative NumPy integers and functions with several results, for which the statement is false. -/
theorem C149_as_written_partial (vars : List Var) (pts : List (List Pt)) (hp : PointsOk vars pts) (raws : List (RawSpec Pt R))
    (hd : ∀ s ∈ raws, Documented s) (hn : ∀ s ∈ raws, ¬ NoComponent s.component) :
    ∃ rows : List ℕ, ∃ mask vals, fromSpecs vars pts raws = .ok ⟨rows.map fun k : ℕ => (k : ℤ), mask, vals, numDofs vars⟩ ∧
      rows.Pairwise (· < ·) ∧ (∀ d ∈ rows, d < numDofs vars) ∧ vals.length = rows.length ∧ mask.length = numDofs vars ∧
      (∀ d < numDofs vars, mask.getD d false = true ↔ d ∈ rows) ∧
      ∀ i k c, ValidTriple vars i k c → ∀ pt, (pts.getD i [])[k]? = some pt →
        (Spec.dofNumber (fields vars) i k c ∈ rows ↔ ∃ s ∈ raws, Wants s i k c pt) ∧
        ∀ s, raws.find? (fun s => decide (Wants s i k c pt)) = some s →
          ∃ t : ℕ, rows[t]? = some (Spec.dofNumber (fields vars) i k c) ∧ vals[t]? = some (valueAt s.value pt) := by
  obtain ⟨objs, h1, h2, h3⟩ := mkSpecs_doc raws hd hn
  have hc : ∃ bc, createBC vars pts (objs.map normalOf) = .ok bc := by
    cases hcr : createBC vars pts (objs.map normalOf) with
    | ok bc => exact ⟨bc, rfl⟩
    | error e =>
      exfalso
      obtain ⟨s, hs, hb, -⟩ := (C10_bad_location_rejected vars pts (objs.map normalOf) hp).2.mp ⟨e, hcr⟩
      obtain ⟨o, ho, rfl⟩ := List.mem_map.mp hs
      rcases (h2 o ho).location with ⟨f, hf⟩ | ⟨f, hf⟩
      · simp [normalOf, hf] at hb
      · simp [normalOf, hf] at hb
  obtain ⟨bc, hbc⟩ := hc
  have can := C10_canonical vars pts _ hp bc hbc
  refine ⟨bc.rows, bc.mask, bc.vals, ?_, can.sorted, can.lt, can.vals, can.maskLength, can.mask, ?_⟩
  · unfold fromSpecs
    rw [h1]
    simp only
    rw [createObj_doc vars pts objs h2, hbc]
    simp only [Except.map, IntBC.ofBC, can.total]
  · intro i k c hv pt hpt
    have hQ : ∀ r o, r ∈ raws → (o.location = r.location ∧ o.value = r.value ∧ o.variableIndex = r.variableIndex ∧
        postInit r.component = .ok o.component) → (decide (Wants r i k c pt)) = Spec.selects (normalOf o) i k c pt := by
      rintro r o hr ⟨hl, -, hi, hc⟩
      have := selects_doc (hd r hr) hl hi hc i k c pt
      by_cases hw : Wants r i k c pt
      · rw [decide_eq_true hw]; exact (this.mpr hw).symm
      · rw [decide_eq_false hw]
        exact (Bool.eq_false_iff.mpr fun h => hw (this.mp h)).symm
    have hfind : ∀ s, raws.find? (fun s => decide (Wants s i k c pt)) = some s →
        ∃ o, objs.find? (fun o => Spec.selects (normalOf o) i k c pt) = some o ∧ o.value = s.value := by
      intro s hs
      obtain ⟨o, ho, hQo⟩ := find_forall₂ (p := fun s => decide (Wants s i k c pt))
        (q := fun o => Spec.selects (normalOf o) i k c pt) h3 hQ s hs
      exact ⟨o, ho, hQo.2.1⟩
    refine ⟨?_, ?_⟩
    · rw [C10_rows_exactly_selected vars pts _ hp bc hbc i k c hv pt hpt]
      constructor
      · rintro ⟨s, hs, hsel⟩
        obtain ⟨o, ho, rfl⟩ := List.mem_map.mp hs
        obtain ⟨r, hr, hQr⟩ : ∃ r ∈ raws, (o.location = r.location ∧ o.value = r.value ∧ o.variableIndex = r.variableIndex ∧
            postInit r.component = .ok o.component) := by
          clear hbc can hfind hQ h1 h2 hs
          induction h3 with
          | nil => simp at ho
          | @cons x y l m hxy _ ih =>
            rcases List.mem_cons.mp ho with rfl | ho
            · exact ⟨x, by simp, hxy⟩
            · obtain ⟨r, hr, h⟩ := ih (fun s h => hd s (by simp [h])) (fun s h => hn s (by simp [h])) ho
              exact ⟨r, by simp [hr], h⟩
        have := hQ r o hr hQr
        rw [hsel] at this
        exact ⟨r, hr, by simpa using this⟩
      · rintro ⟨s, hs, hw⟩
        cases hf : raws.find? (fun s => decide (Wants s i k c pt)) with
        | none => exact absurd hw (by simpa using (List.find?_eq_none.mp hf) s hs)
        | some r =>
          obtain ⟨o, ho, -⟩ := hfind r hf
          have hos := List.find?_some ho
          exact ⟨normalOf o, List.mem_map_of_mem (List.mem_of_find?_eq_some ho), by simpa using hos⟩
    · intro s hs
      obtain ⟨o, ho, hval⟩ := hfind s hs
      have := C11_first_spec_wins vars pts _ hp bc hbc i k c hv pt hpt (normalOf o)
        (by rw [List.find?_map, show ((fun s => Spec.selects s i k c pt) ∘ normalOf) =
              (fun o : SpecObj Pt R => Spec.selects (normalOf o) i k c pt) from rfl, ho]; rfl)
      simpa [normalOf, hval] using this

/-- **C149** (histories): after any program, a list that is its own holds what was put in it: the list of a configuration
made empty or by `dirichlet_bc_config` is its initial specifications followed by those added through it, in order, whatever
happens to the others. -/
theorem C149_histories {S : Type*} (h : ListHeap S) (ops : List (ConfigOp S)) (id : ℕ) (hid : id < h.length) :
    (runConfig h ops)[id]? = some (h.getD id [] ++ ops.filterMap fun op => match op with
      | .add j s => if j = id then some s else none
      | _ => none) := by
  induction ops generalizing h with
  | nil => simp [runConfig, List.getD_eq_getElem?_getD, hid]
  | cons op ops ih =>
    have step : runConfig h (op :: ops) = runConfig (op.run h).1 ops := rfl
    rw [step]
    cases op with
    | newList l =>
      rw [ih _ (by simp [ConfigOp.run]; omega)]
      simp [ConfigOp.run, List.getD_eq_getElem?_getD, List.getElem?_append_left hid]
    | empty =>
      rw [ih _ (by simp [ConfigOp.run]; omega)]
      simp [ConfigOp.run, List.getD_eq_getElem?_getD, List.getElem?_append_left hid]
    | wrap j => rw [ih _ (by simpa [ConfigOp.run] using hid)]; simp [ConfigOp.run]
    | config l =>
      rw [ih _ (by simp [ConfigOp.run]; omega)]
      simp [ConfigOp.run, List.getD_eq_getElem?_getD, List.getElem?_append_left hid]
    | add j s =>
      rw [ih _ (by simpa [ConfigOp.run] using hid)]
      by_cases hj : j = id
      · subst hj
        simp [ConfigOp.run, List.getD_eq_getElem?_getD, hid]
      · simp [ConfigOp.run, List.getD_eq_getElem?_getD, hj]

end main

/-! ## Where the code does something else -/

/-- A scalar field on three nodes of a line. -/
def lineVars : List Var := [⟨1, 3, 2, [[0, 1], [1, 2]]⟩]

/-- A field with two components on the same nodes. -/
def lineVars2 : List Var := [⟨2, 3, 2, [[0, 1], [1, 2]]⟩]

/-- The nodes. -/
def linePts : List (List ℤ) := [[0, 1, 2]]

theorem line_points : PointsOk lineVars linePts := ⟨rfl, by decide⟩

theorem line_points2 : PointsOk lineVars2 linePts := ⟨rfl, by decide⟩

/-- Refuted: `lambda pt, tol=1: abs(pt) < tol` describes the node at the origin. The code takes the second parameter for the
node number, replaces the tolerance by it, and constrains nothing, without an error. -/
theorem C149_default_argument_overwritten :
    let s : RawSpec ℤ ℤ := ⟨.defaulted (fun x tol => decide (|x| < tol)) 1, .str "all", .number 0, none⟩
    Wants s 0 0 0 0 ∧ fromSpecs lineVars linePts [s] = .ok ⟨[], [false, false, false], [], 3⟩ := by
  refine ⟨⟨.inl rfl, .inl (by decide +kernel), by decide⟩, by decide +kernel⟩

/-- In general: the nodes selected are those for which the predicate holds with the node number in place of the default. -/
theorem C149_default_argument_is_node_number {Pt R : Type*} [NatCast R] (f : Pt → R → Bool) (d : R) (pt : Pt) (k : ℕ) :
    objLocate (.defaulted f d : PyLoc Pt R) = .ok (fun pt k => f pt (k : R)) ∧
      holds (.defaulted f d : PyLoc Pt R) pt k = f pt d := ⟨rfl, rfl⟩

/-- Refuted: a negative component is refused if it is a Python integer, not if it is a NumPy integer. Component `-1` at the
second node then constrains the second component of the first node. -/
theorem C149_negative_numpy_component :
    fromSpecs lineVars2 linePts [(⟨.point fun x => decide (x = 1), .int (-1), .number 7, none⟩ : RawSpec ℤ ℤ)] =
        .error .valueError ∧
      fromSpecs lineVars2 linePts [(⟨.point fun x => decide (x = 1), .npInt (-1), .number 7, none⟩ : RawSpec ℤ ℤ)] =
        .ok ⟨[1], [false, true, false, false, false, false], [7], 6⟩ := by
  exact ⟨by decide, by decide +kernel⟩

/-- Refuted: the documentation says that `variable_index` is ignored for single-variable problems; a specification with
index 1 is ignored instead. -/
theorem C149_variable_index_not_ignored :
    let s : RawSpec ℤ ℤ := ⟨.point fun x => decide (x = 0), .str "all", .number 7, some 1⟩
    fromSpecs lineVars linePts [s] = .ok ⟨[], [false, false, false], [], 3⟩ ∧
      fromSpecs lineVars linePts [{ s with variableIndex := none }] = .ok ⟨[0], [true, false, false], [7], 3⟩ := by
  exact ⟨by decide +kernel, by decide +kernel⟩

/-- A component no field has constrains nothing, in every problem, and is not reported. -/
theorem C149_component_beyond_all_fields {Pt R : Type*} [NatCast R] [Zero R] (vars : List Var) (pts : List (List Pt))
    (s : RawSpec Pt R) (z : ℕ) (hz : s.component = .int z)
    (hbig : ∀ v ∈ vars, v.vec ≤ z) :
    fromSpecs vars pts [s] = .ok ⟨[], List.replicate (numDofs vars) false, [], numDofs vars⟩ := by
  have hmk : mkSpec s = .ok ⟨s.location, .idx z, s.value, s.variableIndex⟩ := by
    unfold mkSpec
    rw [hz]
    simp only [postInit]
    rw [if_neg (by omega)]
  have hcoll : objCollect vars pts [(⟨s.location, .idx z, s.value, s.variableIndex⟩ : SpecObj Pt R)] = .ok ([], []) := by
    unfold objCollect
    have hcomp : ∀ (i : ℕ) (v : Var), v ∈ vars →
        objComponents (⟨s.location, .idx z, s.value, s.variableIndex⟩ : SpecObj Pt R) i v.vec = [] := by
      intro i v hv
      have := hbig v hv
      unfold objComponents
      split_ifs
      · rfl
      · simp only
        rw [if_pos (by exact_mod_cast this)]
    have hin : ∀ q ∈ ((vars.zip (offsets vars)).zip pts).zipIdx, q.1.1.1 ∈ vars := by
      intro q hq
      have h1 := List.fst_mem_of_mem_zipIdx hq
      have h2 := List.of_mem_zip (a := q.1.1) (b := q.1.2) h1
      exact (List.of_mem_zip (a := q.1.1.1) (b := q.1.1.2) h2.1).1
    rw [forCollect_const (b := ([], [])) _ _ (fun q hq => ?_)]
    · simp
    · simp [objOnVar, hcomp q.2 q.1.1.1 (hin q hq), forCollect]
  unfold fromSpecs
  simp only [forCollect, hmk, createObj, List.isEmpty_cons, Bool.false_eq_true, if_false, hcoll]
  rfl

/-- Refuted: a value function with several results is not refused. Its results are strung together and dealt out to the rows
of the nodes: the second node gets the second component meant for the first. -/
theorem C149_vector_value_dealt_out :
    let s : RawSpec ℤ ℤ := ⟨.point fun _ => true, .str "x", .fn fun x => [x, 10 + x], none⟩
    fromSpecs lineVars2 linePts [s] = .ok ⟨[0, 2, 4], [true, false, true, false, true, false], [0, 10, 1], 6⟩ := by
  decide +kernel

/-- Refuted: two configurations made from one list are not independent: a condition added to one is in the other, and in
the list of the caller. -/
theorem C149_shared_list :
    let h := runConfig [] [.newList [1], .wrap 0, .wrap 0, .add 0 2]
    ((ConfigOp.wrap 0 : ConfigOp ℕ).run [[1]]).2 = 0 ∧ h = [[1, 2]] := by
  decide

/-- Callables that are functions of the point in Python, but no plain functions, are refused when the condition is compiled,
bound methods with `TypeError` and objects without code with `AttributeError`. -/
theorem C149_other_callables :
    fromSpecs lineVars linePts [(⟨.method fun x => decide (x = 0), .str "all", .number 0, none⟩ : RawSpec ℤ ℤ)] =
        .error .typeError ∧
      fromSpecs lineVars linePts [(⟨.noCode fun x => decide (x = 0), .str "all", .number 0, none⟩ : RawSpec ℤ ℤ)] =
        .error .attributeError := by
  exact ⟨by decide +kernel, by decide +kernel⟩

/-! ## The hypotheses can be met -/

/-- Documented specifications of every kind, overlapping. -/
def docSpecs : List (RawSpec ℤ ℤ) :=
  [⟨.point fun x => decide (x = 0), .str "All", .number 7, none⟩,
   ⟨.pointNode fun _ k => decide (k ≠ 1), .int 0, .fn fun x => [x + 1], some 0⟩,
   ⟨.point fun _ => true, .npInt 1, .fn fun x => [-x], none⟩]

theorem docSpecs_doc : ∀ s ∈ docSpecs, Documented s := by
  intro s hs
  simp only [docSpecs, List.mem_cons, List.not_mem_nil, or_false] at hs
  rcases hs with rfl | rfl | rfl
  · exact ⟨.inl ⟨_, rfl⟩, .inl ⟨_, rfl⟩, by simp⟩
  · exact ⟨.inr ⟨_, rfl⟩, .inr ⟨_, rfl, fun _ => rfl⟩, by simp⟩
  · exact ⟨.inl ⟨_, rfl⟩, .inr ⟨_, rfl, fun _ => rfl⟩, by simp⟩

theorem docSpecs_named : ∀ s ∈ docSpecs, ¬ NoComponent s.component := by
  intro s hs
  simp only [docSpecs, List.mem_cons, List.not_mem_nil, or_false] at hs
  rcases hs with rfl | rfl | rfl
  · exact fun h => h.1 (by decide +kernel)
  · simp [NoComponent]
  · simp [NoComponent]

example := C149_as_written_partial lineVars2 linePts line_points2 docSpecs docSpecs_doc docSpecs_named
example : fromSpecs lineVars2 linePts docSpecs =
    .ok ⟨[0, 1, 3, 4, 5], [true, true, false, true, true, true], [7, 7, -1, 3, -2], 6⟩ := by decide +kernel
example := C149_refused (⟨.point fun _ => true, .str "w", .number 0, none⟩ : RawSpec ℤ ℤ)
example := C149_component_beyond_all_fields lineVars linePts
  (⟨.point fun _ => true, .int 1, .number 0, none⟩ : RawSpec ℤ ℤ) 1 rfl (by decide)
example := C149_histories [[1], [5]] [.add 1 6, .config [3], .add 2 4, .add 0 2] 1 (by decide)

/-- C149: a location with no parameter or with more than two is refused with `ValueError`, in every problem with one field. -/
theorem C149_wrong_arity_refused {Pt R : Type*} [NatCast R] [Zero R] (v : Var) (hv : 0 < v.vec) (pts : List Pt) (value : PyValue Pt R) :
    fromSpecs [v] [pts] [(⟨.arity, .str "all", value, none⟩ : RawSpec Pt R)] = .error .valueError := by
  obtain ⟨k, hk⟩ : ∃ k, v.vec = k + 1 := ⟨v.vec - 1, by omega⟩
  have hm : mkSpec (⟨.arity, .str "all", value, none⟩ : RawSpec Pt R) = .ok ⟨.arity, .all, value, none⟩ := by
    unfold mkSpec
    rw [show postInit (.str "all") = .ok .all from by decide +kernel]
  have hvar : ∀ o, objOnVar 0 v o pts (⟨.arity, .all, value, none⟩ : SpecObj Pt R) = .error .valueError := by
    intro o
    simp [objOnVar, objComponents, hk, List.range_succ_eq_map, forCollect, objEntries, objLocate]
  obtain ⟨o, os, ho⟩ : ∃ o os, offsets [v] = o :: os := ⟨0, [], rfl⟩
  unfold fromSpecs
  simp [forCollect, hm, createObj, objCollect, ho, hvar]

end Verif.Props
