import Verif.Props.Periodic
import Mathlib.Data.Fintype.Powerset
import Mathlib.Data.Fintype.Pi
import Mathlib.Data.List.Perm.Basic
import Mathlib.Algebra.Order.Ring.Rat
import Mathlib.Algebra.Order.Field.Rat
import Mathlib.Tactic.FinCases
import Mathlib.Tactic.FieldSimp

/-!
# Periodic pairings of boxes (C24)
-/

set_option linter.unusedSectionVars false

namespace Verif.Props
open Verif.Model

section
variable {K : Type*} [Field K] [LinearOrder K] [IsStrictOrderedRing K] {d : ℕ}

/-- A node set suited to periodicity on the box `[a, b]`: distinct nodes inside the box, the lower corner
among them, and every node on a lower face has its translate on the opposite face and conversely. -/
structure PeriodicBox (points : List (Fin d → K)) (a b : Fin d → K) : Prop where
  nodup : points.Nodup
  lt : ∀ i, a i < b i
  box : ∀ p ∈ points, ∀ i, a i ≤ p i ∧ p i ≤ b i
  corner : a ∈ points
  up : ∀ p ∈ points, ∀ i, p i = a i → Function.update p i (b i) ∈ points
  down : ∀ p ∈ points, ∀ i, p i = b i → Function.update p i (a i) ∈ points

/-- The node with its upper coordinates moved to the lower faces: the point `p` must be tied to. -/
def lowered (a b p : Fin d → K) : Fin d → K := fun i => if p i = b i then a i else p i

/-- Axes on which `p` is on the boundary of the box. -/
def hitSet (a b p : Fin d → K) : Finset (Fin d) := Finset.univ.filter (fun i => p i = a i ∨ p i = b i)

/-- Axes on which `p` is on the upper boundary. -/
def upSet (b p : Fin d → K) : Finset (Fin d) := Finset.univ.filter (fun i => p i = b i)

theorem mem_hitSet (a b p : Fin d → K) (i : Fin d) : i ∈ hitSet a b p ↔ p i = a i ∨ p i = b i := by
  simp [hitSet]

theorem mem_upSet (b p : Fin d → K) (i : Fin d) : i ∈ upSet b p ↔ p i = b i := by
  simp [upSet]

/-- Boundary class of a node. -/
def Cls (a b : Fin d → K) (H U : Finset (Fin d)) (p : Fin d → K) : Prop :=
  hitSet a b p = H ∧ upSet b p = U

/-- Raise the coordinates in `U`. -/
def lift (b : Fin d → K) (U : Finset (Fin d)) (p : Fin d → K) : Fin d → K :=
  fun i => if i ∈ U then b i else p i

theorem PeriodicBox.lift_mem {points : List (Fin d → K)} {a b : Fin d → K} (h : PeriodicBox points a b)
    (p : Fin d → K) (hp : p ∈ points) (U : Finset (Fin d)) (hU : ∀ i ∈ U, p i = a i) :
    lift b U p ∈ points := by
  induction U using Finset.induction_on with
  | empty =>
    have : lift b ∅ p = p := by funext i; simp [lift]
    rw [this]; exact hp
  | insert j U hj ih =>
    have h1 := ih (fun i hi => hU i (Finset.mem_insert_of_mem hi))
    have h2 := h.up _ h1 j (by simp [lift, hj, hU j (Finset.mem_insert_self _ _)])
    convert h2 using 1
    funext i
    by_cases hij : i = j
    · subst hij; simp [lift]
    · simp [lift, hij]

theorem PeriodicBox.lower_mem {points : List (Fin d → K)} {a b : Fin d → K} (h : PeriodicBox points a b)
    (p : Fin d → K) (hp : p ∈ points) : lowered a b p ∈ points := by
  have gen : ∀ U : Finset (Fin d), (∀ i ∈ U, p i = b i) →
      (fun i => if i ∈ U then a i else p i) ∈ points := by
    intro U
    induction U using Finset.induction_on with
    | empty => intro _; simpa using hp
    | insert j U hj ih =>
      intro hU
      have h1 := ih (fun i hi => hU i (Finset.mem_insert_of_mem hi))
      have h2 := h.down _ h1 j (by simp [hj, hU j (Finset.mem_insert_self _ _)])
      convert h2 using 1
      funext i
      by_cases hij : i = j
      · subst hij; simp
      · simp [hij]
  have := gen (upSet b p) (fun i hi => by simpa [mem_upSet] using hi)
  convert this using 1
  funext i
  simp [lowered, upSet]

theorem PeriodicBox.lb_eq {u : UnitCell K d} {a b : Fin d → K} (h : PeriodicBox u.points a b) :
    u.lb = a := by
  funext i
  unfold UnitCell.lb
  have : (u.points.map (· i)).min? = some (a i) := by
    rw [List.min?_eq_some_iff]
    constructor
    · exact List.mem_map.mpr ⟨a, h.corner, rfl⟩
    · intro x hx
      obtain ⟨p, hp, rfl⟩ := List.mem_map.mp hx
      exact (h.box p hp i).1
  rw [this]; rfl

theorem PeriodicBox.ub_eq {u : UnitCell K d} {a b : Fin d → K} (h : PeriodicBox u.points a b) :
    u.ub = b := by
  funext i
  unfold UnitCell.ub
  have : (u.points.map (· i)).max? = some (b i) := by
    rw [List.max?_eq_some_iff]
    constructor
    · exact List.mem_map.mpr ⟨_, h.up a h.corner i rfl, by simp⟩
    · intro x hx
      obtain ⟨p, hp, rfl⟩ := List.mem_map.mp hx
      exact (h.box p hp i).2
  rw [this]; rfl

theorem hits_eq (u : UnitCell K d) (p : Fin d → K) :
    u.hits p = (hitSet u.lb u.ub p).card := by
  unfold UnitCell.hits hitSet
  rw [← List.toFinset_card_of_nodup ((List.nodup_finRange d).filter _)]
  congr 1
  ext i
  simp

theorem cls_lift {points : List (Fin d → K)} {a b : Fin d → K} (h : PeriodicBox points a b)
    {H U : Finset (Fin d)} (hUH : U ⊆ H) (p : Fin d → K) (hc : Cls a b H ∅ p) :
    Cls a b H U (lift b U p) ∧ lowered a b (lift b U p) = p ∧
      ∀ i, lift b U p i = p i + if i ∈ U then b i - a i else 0 := by
  obtain ⟨h1, h2⟩ := hc
  have hno : ∀ i, p i ≠ b i := by
    intro i hi
    have : i ∈ upSet b p := by simpa [mem_upSet] using hi
    rw [h2] at this; simp at this
  have hU : ∀ i ∈ U, p i = a i := by
    intro i hi
    have := hUH hi
    rw [← h1] at this
    rcases (by simpa [mem_hitSet] using this : p i = a i ∨ p i = b i) with h | h
    · exact h
    · exact absurd h (hno i)
  refine ⟨⟨?_, ?_⟩, ?_, ?_⟩
  · rw [← h1]
    ext i
    simp only [mem_hitSet, lift]
    by_cases hi : i ∈ U
    · simp [hi, hU i hi]
    · simp [hi]
  · ext i
    simp only [mem_upSet, lift]
    by_cases hi : i ∈ U
    · simp [hi]
    · simp [hi, hno i]
  · funext i
    unfold lowered lift
    by_cases hi : i ∈ U
    · simp [hi, hU i hi]
    · simp [hi, hno i]
  · intro i
    unfold lift
    by_cases hi : i ∈ U
    · simp [hi, hU i hi]
    · simp [hi]

theorem cls_lower {points : List (Fin d → K)} {a b : Fin d → K} (h : PeriodicBox points a b)
    {H U : Finset (Fin d)} (p : Fin d → K) (hc : Cls a b H U p) :
    Cls a b H ∅ (lowered a b p) ∧ lift b U (lowered a b p) = p := by
  obtain ⟨h1, h2⟩ := hc
  refine ⟨⟨?_, ?_⟩, ?_⟩
  · rw [← h1]
    ext i
    simp only [mem_hitSet, lowered]
    by_cases hi : p i = b i
    · simp [hi]
    · simp [hi]
  · ext i
    simp only [mem_upSet, lowered, Finset.notMem_empty, iff_false]
    by_cases hi : p i = b i
    · simp [hi, (h.lt i).ne]
    · simp [hi]
  · funext i
    rw [← h2]
    simp only [lift, mem_upSet, lowered]
    by_cases hi : p i = b i
    · simp [hi]
    · simp [hi]

/-- The pair `ms` selects, on the nodes, a lower class and the upper class `U` above it. -/
def PairIs (points : List (Fin d → K)) (a b : Fin d → K)
    (ms : ((Fin d → K) → Bool) × ((Fin d → K) → Bool)) (H U : Finset (Fin d)) : Prop :=
  ∀ p ∈ points, (ms.1 p = true ↔ Cls a b H ∅ p) ∧ (ms.2 p = true ↔ Cls a b H U p)

/-- The centroid mapping of a pair of opposite classes is the translation. -/
theorem mapping_ok {u : UnitCell K d} {a b : Fin d → K} (h : PeriodicBox u.points a b)
    (ms : ((Fin d → K) → Bool) × ((Fin d → K) → Bool)) (H U : Finset (Fin d)) (hUH : U ⊆ H)
    (hms : PairIs u.points a b ms H U) :
    ∃ f, u.mapping ms.1 ms.2 = .ok f ∧ ∀ p ∈ u.points, ms.1 p = true → f p = lift b U p := by
  have hperm : (u.points.filter ms.2).Perm ((u.points.filter ms.1).map (lift b U)) := by
    have hnd : ((u.points.filter ms.1).map (lift b U)).Nodup := by
      apply List.Nodup.map_on
      · intro x hx y hy hxy
        rw [List.mem_filter] at hx hy
        have e1 := (cls_lift h hUH x ((hms x hx.1).1.mp hx.2)).2.1
        have e2 := (cls_lift h hUH y ((hms y hy.1).1.mp hy.2)).2.1
        rw [← e1, ← e2, hxy]
      · exact h.nodup.filter _
    rw [List.perm_ext_iff_of_nodup (h.nodup.filter _) hnd]
    intro p
    rw [List.mem_filter, List.mem_map]
    constructor
    · rintro ⟨hp, hs⟩
      have hc := (hms p hp).2.mp hs
      obtain ⟨c1, c2⟩ := cls_lower h p hc
      have hm := h.lower_mem p hp
      exact ⟨lowered a b p, List.mem_filter.mpr ⟨hm, (hms _ hm).1.mpr c1⟩, c2⟩
    · rintro ⟨q, hq, rfl⟩
      rw [List.mem_filter] at hq
      have hc := (hms q hq.1).1.mp hq.2
      have hcl := cls_lift h hUH q hc
      have hmem : lift b U q ∈ u.points := by
        apply h.lift_mem q hq.1
        intro i hi
        have h1 := hcl.2.2 i
        simp only [lift, if_pos hi] at h1
        linarith
      exact ⟨hmem, (hms _ hmem).2.mpr hcl.1⟩
  have hlen : (u.points.filter ms.1).length = (u.points.filter ms.2).length := by
    rw [hperm.length_eq, List.length_map]
  unfold UnitCell.mapping
  simp only
  rw [if_neg (not_not.mpr hlen)]
  refine ⟨_, rfl, ?_⟩
  intro p hp hpm
  have hpos : 0 < (u.points.filter ms.1).length :=
    List.length_pos_of_mem (List.mem_filter.mpr ⟨hp, hpm⟩)
  funext i
  have hcl := (cls_lift h hUH p ((hms p hp).1.mp hpm)).2.2 i
  rw [hcl]
  congr 1
  unfold UnitCell.mean
  rw [← hlen]
  have hs : ((u.points.filter ms.2).map (· i)).sum
      = ((u.points.filter ms.1).map (· i)).sum
        + ((u.points.filter ms.1).length : K) * (if i ∈ U then b i - a i else 0) := by
    rw [(hperm.map (· i)).sum_eq, List.map_map]
    have hall : ∀ q ∈ u.points.filter ms.1, lift b U q i = q i + if i ∈ U then b i - a i else 0 := by
      intro q hq
      rw [List.mem_filter] at hq
      exact (cls_lift h hUH q ((hms q hq.1).1.mp hq.2)).2.2 i
    revert hall
    generalize u.points.filter ms.1 = l
    intro hall
    induction l with
    | nil => simp
    | cons q l ih =>
      simp only [List.map_cons, List.sum_cons, Function.comp_apply, List.length_cons]
      rw [ih (fun q hq => hall q (List.mem_cons_of_mem _ hq)), hall q (by simp)]
      push_cast
      ring
  rw [hs]
  have hne : ((u.points.filter ms.1).length : K) ≠ 0 := by
    rw [Nat.cast_ne_zero]; omega
  field_simp
  ring

theorem forCollect_total {α β ε : Type*} (f : α → Except ε β) (l : List α)
    (h : ∀ a ∈ l, ∃ b, f a = .ok b) : ∃ r, forCollect f l = .ok r := by
  induction l with
  | nil => exact ⟨[], rfl⟩
  | cons x xs ih =>
    obtain ⟨b, hb⟩ := h x (by simp)
    obtain ⟨r, hr⟩ := ih (fun a ha => h a (List.mem_cons_of_mem _ ha))
    exact ⟨b :: r, by simp [forCollect, hb, hr]⟩

theorem forall₂_mem_right {α β : Type*} {r : α → β → Prop} {l : List α} {m : List β}
    (h : List.Forall₂ r l m) (y : β) (hy : y ∈ m) : ∃ x ∈ l, r x y := by
  induction h with
  | nil => simp at hy
  | cons hx _ ih =>
    rcases List.mem_cons.mp hy with rfl | hy
    · exact ⟨_, by simp, hx⟩
    · obtain ⟨x, hx, hr⟩ := ih hy; exact ⟨x, List.mem_cons_of_mem _ hx, hr⟩

theorem forall₂_mem_left {α β : Type*} {r : α → β → Prop} {l : List α} {m : List β}
    (h : List.Forall₂ r l m) (x : α) (hx : x ∈ l) : ∃ y ∈ m, r x y := by
  induction h with
  | nil => simp at hx
  | cons hr _ ih =>
    rcases List.mem_cons.mp hx with rfl | hx
    · exact ⟨_, by simp, hr⟩
    · obtain ⟨y, hy, hr⟩ := ih hx; exact ⟨y, List.mem_cons_of_mem _ hy, hr⟩

/-- From a complete family of class pairs to the statement about nodes. -/
theorem pairs_cover {u : UnitCell K d} {a b : Fin d → K} (h : PeriodicBox u.points a b) (vec : ℕ)
    (pairs : List (((Fin d → K) → Bool) × ((Fin d → K) → Bool)))
    (hsound : ∀ ms ∈ pairs, ∃ H U, U.Nonempty ∧ U ⊆ H ∧ PairIs u.points a b ms H U)
    (hcomplete : ∀ H U, U.Nonempty → U ⊆ H → ∃ ms ∈ pairs, PairIs u.points a b ms H U)
    (near : (Fin d → K) → (Fin d → K) → Bool)
    (hnear : ∀ p ∈ u.points, ∀ q ∈ u.points, near p q = true ↔ p = q) :
    ∃ l, forCollect (u.pair vec) pairs = .ok l ∧
      ∀ i j c, i < u.points.length → j < u.points.length → c < vec →
        (Spec.PairedDofs near u.points vec l.flatten (i * vec + c) (j * vec + c) ↔
          (∃ k, u.points.getD j 0 k = b k) ∧ u.points.getD i 0 = lowered a b (u.points.getD j 0)) := by
  have htot : ∀ ms ∈ pairs, ∃ r, u.pair vec ms = .ok r := by
    intro ms hms
    obtain ⟨H, U, _, hUH, hp⟩ := hsound ms hms
    obtain ⟨f, hf, _⟩ := mapping_ok h ms H U hUH hp
    exact ⟨_, by unfold UnitCell.pair; rw [hf]⟩
  obtain ⟨l, hl⟩ := forCollect_total _ _ htot
  refine ⟨l, hl, ?_⟩
  have hf := forCollect_ok _ _ _ hl
  intro i j c hi hj hc
  have hgi : u.points[i]? = some (u.points.getD i 0) := by
    rw [List.getD_eq_getElem _ _ hi]; exact List.getElem?_eq_getElem hi
  have hgj : u.points[j]? = some (u.points.getD j 0) := by
    rw [List.getD_eq_getElem _ _ hj]; exact List.getElem?_eq_getElem hj
  have hmi : u.points.getD i 0 ∈ u.points := List.mem_of_getElem? hgi
  have hmj : u.points.getD j 0 ∈ u.points := List.mem_of_getElem? hgj
  constructor
  · rintro ⟨bc, hbc, i', j', ⟨pi, pj, e1, e2, hm, hs, hn⟩, ei, ej⟩
    obtain ⟨ls, hls, hbc⟩ := List.mem_flatten.mp hbc
    obtain ⟨ms, hms, hr⟩ := forall₂_mem_right hf ls hls
    obtain ⟨H, U, hU, hUH, hp⟩ := hsound ms hms
    obtain ⟨f, hff, hfl⟩ := mapping_ok h ms H U hUH hp
    unfold UnitCell.pair at hr
    rw [hff] at hr
    obtain rfl := (Except.ok.inj hr).symm
    obtain ⟨k, hk, rfl⟩ := List.mem_map.mp hbc
    simp only at hm hs hn ei ej
    have hk' : k < vec := by simpa using hk
    have hvec : 0 < vec := by omega
    have i_eq : i = i' := by
      have := congrArg (· / vec) ei
      simp only [Nat.mul_comm _ vec, Nat.mul_add_div hvec, Nat.div_eq_of_lt hc, Nat.div_eq_of_lt hk',
        Nat.add_zero] at this
      exact this
    have j_eq : j = j' := by
      have := congrArg (· / vec) ej
      simp only [Nat.mul_comm _ vec, Nat.mul_add_div hvec, Nat.div_eq_of_lt hc, Nat.div_eq_of_lt hk',
        Nat.add_zero] at this
      exact this
    subst i_eq j_eq
    rw [hgi] at e1
    rw [hgj] at e2
    obtain rfl := (Option.some.inj e1)
    obtain rfl := (Option.some.inj e2)
    rw [hfl _ hmi hm] at hn
    have hcm := (hp _ hmi).1.mp hm
    have hlift := cls_lift h hUH _ hcm
    have hcs := (hp _ hmj).2.mp hs
    have hmem : lift b U (u.points.getD i 0) ∈ u.points := by
      apply h.lift_mem _ hmi
      intro x hx
      have h1 := hlift.2.2 x
      simp only [lift, if_pos hx] at h1
      linarith
    have heq := (hnear _ hmem _ hmj).mp hn
    refine ⟨?_, ?_⟩
    · obtain ⟨x, hx⟩ := hU
      refine ⟨x, ?_⟩
      have : x ∈ upSet b (u.points.getD j 0) := by rw [hcs.2]; exact hx
      simpa [mem_upSet] using this
    · rw [← heq, hlift.2.1]
  · rintro ⟨⟨x, hx⟩, hlow⟩
    set p := u.points.getD j 0 with hp0
    have hU : (upSet b p).Nonempty := ⟨x, by simpa [mem_upSet] using hx⟩
    have hUH : upSet b p ⊆ hitSet a b p := by
      intro y hy
      simp only [mem_upSet, mem_hitSet] at hy ⊢
      exact Or.inr hy
    obtain ⟨ms, hms, hp⟩ := hcomplete _ _ hU hUH
    obtain ⟨f, hff, hfl⟩ := mapping_ok h ms _ _ hUH hp
    obtain ⟨ls, hls, hr⟩ := forall₂_mem_left hf ms hms
    unfold UnitCell.pair at hr
    rw [hff] at hr
    obtain rfl := (Except.ok.inj hr).symm
    have hcl : Cls a b (hitSet a b p) (upSet b p) p := ⟨rfl, rfl⟩
    obtain ⟨c1, c2⟩ := cls_lower h p hcl
    have hm : ms.1 (u.points.getD i 0) = true := by
      rw [hlow]; exact (hp _ (h.lower_mem p hmj)).1.mpr c1
    refine ⟨⟨ms.1, ms.2, f, c⟩, List.mem_flatten.mpr ⟨_, hls, List.mem_map.mpr ⟨c, by simpa using hc, rfl⟩⟩,
      i, j, ⟨_, _, hgi, hgj, hm, ?_, ?_⟩, rfl, rfl⟩
    · exact (hp p hmj).2.mpr hcl
    · simp only
      rw [hfl _ hmi hm, hlow, c2]
      exact (hnear _ hmj _ hmj).mpr rfl

/-! ## The pairs of the code -/

/-- On the nodes of the box, equality of coordinates with bounds decides the class of an upper set. -/
theorem upSet_eq_iff {points : List (Fin d → K)} {a b : Fin d → K} (h : PeriodicBox points a b)
    (p : Fin d → K) (H U : Finset (Fin d)) (hUH : U ⊆ H) (hH : hitSet a b p = H) :
    upSet b p = U ↔ ∀ i ∈ H, p i = if i ∈ U then b i else a i := by
  constructor
  · intro hU i hi
    rw [← hH] at hi
    have hi' : p i = a i ∨ p i = b i := by simpa [mem_hitSet] using hi
    by_cases hiU : i ∈ U
    · rw [if_pos hiU]
      rw [← hU] at hiU
      simpa [mem_upSet] using hiU
    · rw [if_neg hiU]
      rcases hi' with h1 | h1
      · exact h1
      · exact absurd (by rw [← hU]; simpa [mem_upSet] using h1) hiU
  · intro hall
    ext i
    simp only [mem_upSet]
    constructor
    · intro hi
      have hiH : i ∈ H := by rw [← hH]; simp [mem_hitSet, hi]
      by_contra hiU
      have := hall i hiH
      rw [if_neg hiU, hi] at this
      exact (h.lt i).ne' this
    · intro hiU
      have := hall i (hUH hiU)
      rwa [if_pos hiU] at this

/-- A node whose boundary axes are exactly `H`, given by coordinates on `H` and the number of hits. -/
theorem cls_iff {points : List (Fin d → K)} {a b : Fin d → K} (h : PeriodicBox points a b)
    (p : Fin d → K) (H U : Finset (Fin d)) (hUH : U ⊆ H) :
    Cls a b H U p ↔ (∀ i ∈ H, p i = if i ∈ U then b i else a i) ∧ (hitSet a b p).card = H.card := by
  constructor
  · rintro ⟨h1, h2⟩
    exact ⟨(upSet_eq_iff h p H U hUH h1).mp h2, by rw [h1]⟩
  · rintro ⟨h1, h2⟩
    have hsub : H ⊆ hitSet a b p := by
      intro i hi
      have := h1 i hi
      simp only [mem_hitSet]
      split_ifs at this
      · exact Or.inr this
      · exact Or.inl this
    have hH := (Finset.eq_of_subset_of_card_le hsub h2.le).symm
    exact ⟨hH, (upSet_eq_iff h p H U hUH hH).mpr h1⟩

theorem cornerFn_iff {points : List (Fin d → K)} {a b : Fin d → K} (h : PeriodicBox points a b)
    (U : Finset (Fin d)) (p : Fin d → K) :
    UnitCell.cornerFn (fun i => if i ∈ U then b i else a i) p = true ↔ Cls a b Finset.univ U p := by
  rw [cls_iff h p Finset.univ U (Finset.subset_univ U)]
  unfold UnitCell.cornerFn
  simp only [List.all_eq_true, List.mem_finRange, true_implies, decide_eq_true_eq, Finset.mem_univ]
  constructor
  · intro hall
    refine ⟨hall, ?_⟩
    congr 1
    ext i
    simp only [mem_hitSet, Finset.mem_univ, iff_true]
    have := hall i
    split_ifs at this
    · exact Or.inr this
    · exact Or.inl this
  · exact fun h => h.1

/-- The corner with bit pattern `c`. -/
def cornerSet (d c : ℕ) : Finset (Fin d) := Finset.univ.filter (fun i => ¬ c / 2 ^ (d - 1 - i.1) % 2 = 0)

theorem mem_cornerPairs {u : UnitCell K d} {a b : Fin d → K} (h : PeriodicBox u.points a b)
    (ms : ((Fin d → K) → Bool) × ((Fin d → K) → Bool)) :
    ms ∈ u.cornerPairs ↔ ∃ c < 2 ^ d, (cornerSet d c).Nonempty ∧
      ms = (UnitCell.cornerFn a, UnitCell.cornerFn (fun i => if i ∈ cornerSet d c then b i else a i)) := by
  have hval : ∀ c, (fun i : Fin d => if c / 2 ^ (d - 1 - i.1) % 2 = 0 then u.lb i
      else u.lb i + (u.ub i - u.lb i)) = fun i => if i ∈ cornerSet d c then b i else a i := by
    intro c
    funext i
    rw [h.lb_eq, h.ub_eq]
    simp only [cornerSet, Finset.mem_filter, Finset.mem_univ, true_and]
    by_cases hc : c / 2 ^ (d - 1 - i.1) % 2 = 0
    · simp [hc]
    · rw [if_neg hc, if_pos hc]; ring
  have hne : ∀ c, (cornerSet d c).Nonempty ↔
      (!(UnitCell.cornerFn a (fun i => if i ∈ cornerSet d c then b i else a i))) = true := by
    intro c
    rw [Bool.not_eq_true', Bool.eq_false_iff, Ne, UnitCell.cornerFn]
    simp only [List.all_eq_true, List.mem_finRange, true_implies, decide_eq_true_eq]
    rw [not_forall]
    constructor
    · rintro ⟨i, hi⟩
      exact ⟨i, by rw [if_pos hi]; exact (h.lt i).ne'⟩
    · rintro ⟨i, hi⟩
      by_contra hno
      rw [Finset.not_nonempty_iff_eq_empty] at hno
      rw [hno] at hi
      simp at hi
  unfold UnitCell.cornerPairs UnitCell.otherCorners
  rw [List.mem_map]
  constructor
  · rintro ⟨x, hx, rfl⟩
    rw [List.mem_filter] at hx
    obtain ⟨hx, hb⟩ := hx
    obtain ⟨c, hc, rfl⟩ := List.mem_map.mp hx
    rw [hval c, h.lb_eq] at hb
    exact ⟨c, by simpa using hc, (hne c).mpr hb, by rw [hval c, h.lb_eq]⟩
  · rintro ⟨c, hc, hcn, rfl⟩
    refine ⟨_, List.mem_filter.mpr ⟨List.mem_map.mpr ⟨c, by simpa using hc, rfl⟩, ?_⟩, ?_⟩
    · rw [hval c, h.lb_eq]; exact (hne c).mp hcn
    · rw [hval c, h.lb_eq]

theorem cornerPair_is {points : List (Fin d → K)} {a b : Fin d → K} (h : PeriodicBox points a b)
    (U : Finset (Fin d)) : PairIs points a b
      (UnitCell.cornerFn a, UnitCell.cornerFn (fun i => if i ∈ U then b i else a i)) Finset.univ U := by
  intro p _
  refine ⟨?_, cornerFn_iff h U p⟩
  have := cornerFn_iff h ∅ p
  simpa using this

theorem hitSet_card_le (a b p : Fin d → K) : (hitSet a b p).card ≤ d := by
  have := Finset.card_le_univ (hitSet a b p)
  simpa using this

theorem hitSet_card_pos {a b p : Fin d → K} {i : Fin d} (h : p i = a i ∨ p i = b i) :
    1 ≤ (hitSet a b p).card :=
  Finset.card_pos.mpr ⟨i, (mem_hitSet a b p i).mpr h⟩

theorem hitSet_card_two {a b p : Fin d → K} {i j : Fin d} (hij : i ≠ j) (h : p i = a i ∨ p i = b i)
    (h' : p j = a j ∨ p j = b j) : 2 ≤ (hitSet a b p).card := by
  have : ({i, j} : Finset (Fin d)) ⊆ hitSet a b p := by
    intro x hx
    rcases Finset.mem_insert.mp hx with rfl | hx
    · exact (mem_hitSet a b p _).mpr h
    · rw [Finset.mem_singleton] at hx; subst hx; exact (mem_hitSet a b p _).mpr h'
  have := Finset.card_le_card this
  rwa [Finset.card_pair hij] at this

/-- Faces of a 3-D cell, edges and corners excluded. -/
theorem face3_iff {u : UnitCell K 3} {a b : Fin 3 → K} (h : PeriodicBox u.points a b) (axis : Fin 3)
    (up : Bool) (p : Fin 3 → K) :
    u.faceFn axis (if up then b axis else a axis) true false p = true ↔
      Cls a b {axis} (if up then {axis} else ∅) p := by
  rw [cls_iff h p {axis} _ (by cases up <;> simp)]
  have hle := hitSet_card_le a b p
  unfold UnitCell.faceFn UnitCell.isEdge UnitCell.isCorner
  rw [hits_eq, h.lb_eq, h.ub_eq]
  simp only [Bool.false_and, Bool.false_eq_true, if_false, if_true, Bool.and_eq_true, decide_eq_true_eq,
    Bool.not_eq_true', Bool.and_eq_false_iff, beq_eq_false_iff_ne, Bool.not_eq_false',
    Finset.mem_singleton, forall_eq, Finset.card_singleton, beq_iff_eq]
  have hv : (if axis ∈ (if up = true then {axis} else ∅ : Finset (Fin 3)) then b axis else a axis)
      = if up = true then b axis else a axis := by cases up <;> simp
  rw [hv]
  constructor
  · rintro ⟨h1, h2, h3⟩
    refine ⟨h1, ?_⟩
    have := hitSet_card_pos (a := a) (b := b) (p := p) (i := axis) (by cases up <;> simp_all)
    rcases h2 with h2 | h2
    · omega
    · exact absurd h2 h3
  · rintro ⟨h1, h2⟩
    refine ⟨h1, Or.inl ?_, by omega⟩
    rw [h2]; norm_num

/-- Edges of a 3-D cell, corners excluded. -/
theorem edge3_iff {u : UnitCell K 3} {a b : Fin 3 → K} (h : PeriodicBox u.points a b) (i j : Fin 3)
    (hij : i ≠ j) (U : Finset (Fin 3)) (hU : U ⊆ {i, j}) (p : Fin 3 → K) :
    u.edgeFn [(i, if i ∈ U then b i else a i), (j, if j ∈ U then b j else a j)] true p = true ↔
      Cls a b {i, j} U p := by
  rw [cls_iff h p {i, j} U hU]
  have hle := hitSet_card_le a b p
  unfold UnitCell.edgeFn UnitCell.isCorner
  rw [hits_eq, h.lb_eq, h.ub_eq]
  simp only [if_true, Bool.and_eq_true, List.all_cons, List.all_nil, Bool.and_true, decide_eq_true_eq,
    Bool.not_eq_true', beq_eq_false_iff_ne, Finset.mem_insert, Finset.mem_singleton, forall_eq_or_imp,
    forall_eq, Finset.card_pair hij]
  constructor
  · rintro ⟨⟨h1, h2⟩, h3⟩
    refine ⟨⟨h1, h2⟩, ?_⟩
    have := hitSet_card_two (a := a) (b := b) (p := p) hij (by split_ifs at h1 <;> simp_all)
      (by split_ifs at h2 <;> simp_all)
    omega
  · rintro ⟨h1, h2⟩
    exact ⟨h1, by omega⟩

/-- Edges of a 2-D cell, corners excluded. -/
theorem face2_iff {u : UnitCell K 2} {a b : Fin 2 → K} (h : PeriodicBox u.points a b) (axis : Fin 2)
    (up : Bool) (p : Fin 2 → K) :
    u.faceFn axis (if up then b axis else a axis) false true p = true ↔
      Cls a b {axis} (if up then {axis} else ∅) p := by
  rw [cls_iff h p {axis} _ (by cases up <;> simp)]
  have hle := hitSet_card_le a b p
  unfold UnitCell.faceFn UnitCell.isCorner
  rw [hits_eq, h.lb_eq, h.ub_eq]
  simp only [Bool.and_false, Bool.false_eq_true, if_false, if_true, Bool.and_eq_true, decide_eq_true_eq,
    Bool.not_eq_true', beq_eq_false_iff_ne, Finset.mem_singleton, forall_eq, Finset.card_singleton]
  have hv : (if axis ∈ (if up = true then {axis} else ∅ : Finset (Fin 2)) then b axis else a axis)
      = if up = true then b axis else a axis := by cases up <;> simp
  rw [hv]
  constructor
  · rintro ⟨h1, h2⟩
    refine ⟨h1, ?_⟩
    have := hitSet_card_pos (a := a) (b := b) (p := p) (i := axis) (by cases up <;> simp_all)
    omega
  · rintro ⟨h1, h2⟩
    exact ⟨h1, by omega⟩

theorem sets2 : ∀ H U : Finset (Fin 2), U.Nonempty → U ⊆ H →
    (∃ c < 2 ^ 2, H = Finset.univ ∧ U = cornerSet 2 c) ∨ ∃ axis : Fin 2, H = {axis} ∧ U = {axis} := by
  decide

theorem corners2 : ∀ c < 2 ^ 2, c ≠ 0 → (cornerSet 2 c).Nonempty := by decide

/-- **C24** (two dimensions). For every box anywhere in the plane and every node set suited to
periodicity, `periodic_bc_2D` succeeds and ties, component by component, exactly the nodes of the upper
edges and corners, each to its own translate on the lower boundary, and nothing else. -/
theorem C24_covers_boundary_2D {u : UnitCell K 2} {a b : Fin 2 → K} (h : PeriodicBox u.points a b)
    (vec : ℕ) (near : (Fin 2 → K) → (Fin 2 → K) → Bool)
    (hnear : ∀ p ∈ u.points, ∀ q ∈ u.points, near p q = true ↔ p = q) :
    ∃ pairings, periodicBc2D u vec = .ok pairings ∧
      ∀ i j c, i < u.points.length → j < u.points.length → c < vec →
        (Spec.PairedDofs near u.points vec pairings (i * vec + c) (j * vec + c) ↔
          (∃ k, u.points.getD j 0 k = b k) ∧ u.points.getD i 0 = lowered a b (u.points.getD j 0)) := by
  have hpairs : ∀ ms, ms ∈ periodicPairs2D u ↔ ms ∈ u.cornerPairs ∨ ∃ axis : Fin 2,
      ms = (u.faceFn axis (a axis) false true, u.faceFn axis (b axis) false true) := by
    intro ms
    unfold periodicPairs2D
    simp only [List.mem_append]
    apply or_congr Iff.rfl
    have e : ∀ axis, a axis + (b axis - a axis) = b axis := fun axis => by ring
    rw [h.lb_eq, h.ub_eq, List.mem_map]
    constructor
    · rintro ⟨axis, _, rfl⟩; exact ⟨axis, by rw [e]⟩
    · rintro ⟨axis, rfl⟩; exact ⟨axis, by fin_cases axis <;> simp, by rw [e]⟩
  have hface : ∀ axis : Fin 2, PairIs u.points a b
      (u.faceFn axis (a axis) false true, u.faceFn axis (b axis) false true) {axis} {axis} := by
    intro axis p _
    have h1 := face2_iff h axis false p
    have h2 := face2_iff h axis true p
    simp only [Bool.false_eq_true, if_false] at h1
    simp only [if_true] at h2
    exact ⟨h1, h2⟩
  obtain ⟨l, hl, hcov⟩ := pairs_cover h vec (periodicPairs2D u) (by
      intro ms hms
      rcases (hpairs ms).mp hms with hc | ⟨axis, rfl⟩
      · obtain ⟨c, _, hne, rfl⟩ := (mem_cornerPairs h ms).mp hc
        exact ⟨Finset.univ, cornerSet 2 c, hne, Finset.subset_univ _, cornerPair_is h _⟩
      · exact ⟨{axis}, {axis}, Finset.singleton_nonempty _, Finset.Subset.refl _, hface axis⟩) (by
      intro H U hU hUH
      rcases sets2 H U hU hUH with ⟨c, hc, rfl, rfl⟩ | ⟨axis, rfl, rfl⟩
      · exact ⟨_, (hpairs _).mpr (Or.inl ((mem_cornerPairs h _).mpr ⟨c, hc, hU, rfl⟩)), cornerPair_is h _⟩
      · exact ⟨_, (hpairs _).mpr (Or.inr ⟨axis, rfl⟩), hface axis⟩) near hnear
  exact ⟨l.flatten, by unfold periodicBc2D; rw [hl], hcov⟩

/-- The three edge pairs of `periodic_bc_3D`. -/
def edgeAxes : List (Fin 3 × Fin 3) := [(1, 2), (0, 2), (0, 1)]

theorem sets3 : ∀ H U : Finset (Fin 3), U.Nonempty → U ⊆ H →
    (∃ c < 2 ^ 3, H = Finset.univ ∧ U = cornerSet 3 c) ∨
    (∃ ax ∈ edgeAxes, H = {ax.1, ax.2} ∧ (U = {ax.1} ∨ U = {ax.1, ax.2} ∨ U = {ax.2})) ∨
    ∃ axis : Fin 3, H = {axis} ∧ U = {axis} := by
  decide

/-- **C24** (three dimensions, lower corner at the origin). `periodic_bc_3D` succeeds and ties,
component by component, exactly the nodes of the upper faces, edges and corners, each to its own translate
on the lower boundary, and nothing else. Missing: boxes elsewhere (false, see below). -/
theorem C24_covers_boundary_3D_partial {u : UnitCell K 3} {b : Fin 3 → K}
    (h : PeriodicBox u.points 0 b) (vec : ℕ) (near : (Fin 3 → K) → (Fin 3 → K) → Bool)
    (hnear : ∀ p ∈ u.points, ∀ q ∈ u.points, near p q = true ↔ p = q) :
    ∃ pairings, periodicBc3D u vec = .ok pairings ∧
      ∀ i j c, i < u.points.length → j < u.points.length → c < vec →
        (Spec.PairedDofs near u.points vec pairings (i * vec + c) (j * vec + c) ↔
          (∃ k, u.points.getD j 0 k = b k) ∧ u.points.getD i 0 = lowered 0 b (u.points.getD j 0)) := by
  have hpairs : ∀ ms, ms ∈ periodicPairs3D u ↔ ms ∈ u.cornerPairs ∨
      (∃ ax ∈ edgeAxes, ms = (u.edgeFn [(ax.1, 0), (ax.2, 0)] true, u.edgeFn [(ax.1, b ax.1), (ax.2, 0)] true)
        ∨ ms = (u.edgeFn [(ax.1, 0), (ax.2, 0)] true, u.edgeFn [(ax.1, b ax.1), (ax.2, b ax.2)] true)
        ∨ ms = (u.edgeFn [(ax.1, 0), (ax.2, 0)] true, u.edgeFn [(ax.1, 0), (ax.2, b ax.2)] true)) ∨
      ∃ axis : Fin 3, ms = (u.faceFn axis 0 true false, u.faceFn axis (b axis) true false) := by
    intro ms
    unfold periodicPairs3D
    simp only [List.mem_append, or_assoc]
    have e : ∀ axis, b axis - (0 : Fin 3 → K) axis = b axis := fun axis => by simp
    rw [h.lb_eq, h.ub_eq]
    simp only [e]
    apply or_congr Iff.rfl
    apply or_congr
    · rw [List.mem_flatMap]
      apply exists_congr
      intro ax
      apply and_congr Iff.rfl
      simp only [List.map_cons, List.map_nil, List.mem_cons, List.not_mem_nil, or_false]
    · rw [List.mem_map]
      constructor
      · rintro ⟨axis, _, rfl⟩; exact ⟨axis, rfl⟩
      · rintro ⟨axis, rfl⟩; exact ⟨axis, by fin_cases axis <;> simp, rfl⟩
  have hface : ∀ axis : Fin 3, PairIs u.points 0 b
      (u.faceFn axis 0 true false, u.faceFn axis (b axis) true false) {axis} {axis} := by
    intro axis p _
    have h1 := face3_iff h axis false p
    have h2 := face3_iff h axis true p
    simp only [Bool.false_eq_true, if_false, Pi.zero_apply] at h1
    simp only [if_true] at h2
    exact ⟨h1, h2⟩
  have hne : ∀ ax ∈ edgeAxes, ax.1 ≠ ax.2 := by decide
  have hedge : ∀ ax ∈ edgeAxes, ∀ U ⊆ ({ax.1, ax.2} : Finset (Fin 3)), PairIs u.points 0 b
      (u.edgeFn [(ax.1, 0), (ax.2, 0)] true, u.edgeFn [(ax.1, if ax.1 ∈ U then b ax.1 else 0),
        (ax.2, if ax.2 ∈ U then b ax.2 else 0)] true) {ax.1, ax.2} U := by
    intro ax hax U hU p _
    have h1 := edge3_iff h ax.1 ax.2 (hne ax hax) ∅ (Finset.empty_subset _) p
    have h2 := edge3_iff h ax.1 ax.2 (hne ax hax) U hU p
    simp only [Finset.notMem_empty, if_false, Pi.zero_apply] at h1
    simp only [Pi.zero_apply] at h2
    exact ⟨h1, h2⟩
  have hedge3 : ∀ ax ∈ edgeAxes,
      PairIs u.points 0 b (u.edgeFn [(ax.1, 0), (ax.2, 0)] true,
        u.edgeFn [(ax.1, b ax.1), (ax.2, 0)] true) {ax.1, ax.2} {ax.1} ∧
      PairIs u.points 0 b (u.edgeFn [(ax.1, 0), (ax.2, 0)] true,
        u.edgeFn [(ax.1, b ax.1), (ax.2, b ax.2)] true) {ax.1, ax.2} {ax.1, ax.2} ∧
      PairIs u.points 0 b (u.edgeFn [(ax.1, 0), (ax.2, 0)] true,
        u.edgeFn [(ax.1, 0), (ax.2, b ax.2)] true) {ax.1, ax.2} {ax.2} := by
    intro ax hax
    have hn := hne ax hax
    have t1 := hedge ax hax {ax.1} (by simp)
    have t2 := hedge ax hax {ax.1, ax.2} (Finset.Subset.refl _)
    have t3 := hedge ax hax {ax.2} (by simp)
    simp only [Finset.mem_singleton, if_true, if_neg hn.symm] at t1
    simp only [Finset.mem_insert, Finset.mem_singleton, true_or, or_true, if_true] at t2
    simp only [Finset.mem_singleton, if_true, if_neg hn] at t3
    exact ⟨t1, t2, t3⟩
  obtain ⟨l, hl, hcov⟩ := pairs_cover h vec (periodicPairs3D u) (by
      intro ms hms
      rcases (hpairs ms).mp hms with hc | ⟨ax, hax, h3⟩ | ⟨axis, rfl⟩
      · obtain ⟨c, _, hne, rfl⟩ := (mem_cornerPairs h ms).mp hc
        exact ⟨Finset.univ, cornerSet 3 c, hne, Finset.subset_univ _, cornerPair_is h _⟩
      · obtain ⟨t1, t2, t3⟩ := hedge3 ax hax
        rcases h3 with rfl | rfl | rfl
        · exact ⟨_, _, Finset.singleton_nonempty _, by simp, t1⟩
        · exact ⟨_, _, Finset.insert_nonempty _ _, Finset.Subset.refl _, t2⟩
        · exact ⟨_, _, Finset.singleton_nonempty _, by simp, t3⟩
      · exact ⟨{axis}, {axis}, Finset.singleton_nonempty _, Finset.Subset.refl _, hface axis⟩) (by
      intro H U hU hUH
      rcases sets3 H U hU hUH with ⟨c, hc, rfl, rfl⟩ | ⟨ax, hax, rfl, h3⟩ | ⟨axis, rfl, rfl⟩
      · exact ⟨_, (hpairs _).mpr (Or.inl ((mem_cornerPairs h _).mpr ⟨c, hc, hU, rfl⟩)), cornerPair_is h _⟩
      · obtain ⟨t1, t2, t3⟩ := hedge3 ax hax
        rcases h3 with rfl | rfl | rfl
        · exact ⟨_, (hpairs _).mpr (Or.inr (Or.inl ⟨ax, hax, Or.inl rfl⟩)), t1⟩
        · exact ⟨_, (hpairs _).mpr (Or.inr (Or.inl ⟨ax, hax, Or.inr (Or.inl rfl)⟩)), t2⟩
        · exact ⟨_, (hpairs _).mpr (Or.inr (Or.inl ⟨ax, hax, Or.inr (Or.inr rfl)⟩)), t3⟩
      · exact ⟨_, (hpairs _).mpr (Or.inr (Or.inr ⟨axis, rfl⟩)), hface axis⟩) near hnear
  exact ⟨l.flatten, by unfold periodicBc3D; rw [hl], hcov⟩

/-- **C24** (no chains): the nodes an upper node is tied to are never tied themselves, so the pairings
satisfy the hypothesis of `C22_prolongation_partial`. -/
theorem C24_lowered_not_upper {points : List (Fin d → K)} {a b : Fin d → K}
    (h : PeriodicBox points a b) (p : Fin d → K) : ¬ ∃ k, lowered a b p k = b k := by
  rintro ⟨k, hk⟩
  unfold lowered at hk
  split_ifs at hk with hc
  · exact (h.lt k).ne hk
  · exact hc hk

/-- **C24** (violation). For every box whose lower corner has positive coordinates exceeding its edge
lengths, `periodic_bc_3D` ties no node that is not a corner of the box: a node interior to an upper face
or edge is left free, without any error. -/
theorem C24_off_origin_3D_unpaired {u : UnitCell K 3} {a b : Fin 3 → K} (h : PeriodicBox u.points a b)
    (hfar : ∀ i, b i - a i < a i) (vec : ℕ) (near : (Fin 3 → K) → (Fin 3 → K) → Bool) :
    ∃ pairings, periodicBc3D u vec = .ok pairings ∧
      ∀ j, (∃ k, u.points.getD j 0 k ≠ a k ∧ u.points.getD j 0 k ≠ b k) →
        ∀ i c c', c < vec → c' < vec →
        ¬ Spec.PairedDofs near u.points vec pairings (i * vec + c') (j * vec + c) := by
  have hpos : ∀ i, (0 : K) < a i := fun i => by
    have := h.lt i; have := hfar i; linarith
  have hne0 : ∀ p ∈ u.points, ∀ i, p i ≠ 0 := fun p hp i he => by
    have := (h.box p hp i).1; have := hpos i; linarith
  have hneL : ∀ p ∈ u.points, ∀ i, p i ≠ b i - a i := fun p hp i he => by
    have := (h.box p hp i).1; have := hfar i; linarith
  have hface : ∀ axis v e c p, p axis ≠ v → u.faceFn axis v e c p = false := by
    intro axis v e c p hv
    unfold UnitCell.faceFn
    cases e <;> cases c <;> simp [hv]
  have hedge : ∀ i v j w p, p i ≠ v → u.edgeFn [(i, v), (j, w)] true p = false := by
    intro i v j w p hv
    unfold UnitCell.edgeFn
    simp [hv]
  -- every non-corner pair selects nothing
  have hpairs : ∀ ms ∈ periodicPairs3D u, ms ∈ u.cornerPairs ∨
      (∀ p ∈ u.points, ms.1 p = false) ∧ ∀ p ∈ u.points, ms.2 p = false := by
    intro ms hms
    unfold periodicPairs3D at hms
    simp only [List.mem_append, or_assoc] at hms
    rw [h.lb_eq, h.ub_eq] at hms
    rcases hms with hc | he | hf
    · exact Or.inl hc
    · right
      obtain ⟨ax, _, hv⟩ := List.mem_flatMap.mp he
      simp only [List.map_cons, List.map_nil, List.mem_cons, List.not_mem_nil, or_false] at hv
      rcases hv with rfl | rfl | rfl
      · exact ⟨fun p hp => hedge ax.1 _ _ _ p (hne0 p hp _), fun p hp => hedge ax.1 _ _ _ p (hneL p hp ax.1)⟩
      · exact ⟨fun p hp => hedge ax.1 _ _ _ p (hne0 p hp _), fun p hp => hedge ax.1 _ _ _ p (hneL p hp ax.1)⟩
      · exact ⟨fun p hp => hedge ax.1 _ _ _ p (hne0 p hp _), fun p hp => hedge ax.1 _ _ _ p (hne0 p hp ax.1)⟩
    · right
      obtain ⟨axis, _, rfl⟩ := List.mem_map.mp hf
      exact ⟨fun p hp => hface axis _ true false p (hne0 p hp _), fun p hp => hface axis _ true false p (hneL p hp axis)⟩
  have htot : ∀ ms ∈ periodicPairs3D u, ∃ r, u.pair vec ms = .ok r := by
    intro ms hms
    rcases hpairs ms hms with hc | ⟨h1, h2⟩
    · obtain ⟨c, _, _, rfl⟩ := (mem_cornerPairs h ms).mp hc
      obtain ⟨f, hf, _⟩ := mapping_ok h _ _ _ (Finset.subset_univ _) (cornerPair_is h (cornerSet 3 c))
      exact ⟨_, by unfold UnitCell.pair; rw [hf]⟩
    · have e1 : u.points.filter ms.1 = [] := List.filter_eq_nil_iff.mpr (fun p hp => by simp [h1 p hp])
      have e2 : u.points.filter ms.2 = [] := List.filter_eq_nil_iff.mpr (fun p hp => by simp [h2 p hp])
      unfold UnitCell.pair UnitCell.mapping
      simp only
      rw [e1, e2, if_neg (by simp)]
      exact ⟨_, rfl⟩
  obtain ⟨l, hl⟩ := forCollect_total _ _ htot
  refine ⟨l.flatten, by unfold periodicBc3D; rw [hl], ?_⟩
  have hf := forCollect_ok _ _ _ hl
  rintro j ⟨k, hka, hkb⟩ i c c' hc hc' ⟨bc, hbc, i', j', ⟨pi, pj, e1, e2, hm, hs, _⟩, _, ej⟩
  obtain ⟨ls, hls, hbc⟩ := List.mem_flatten.mp hbc
  obtain ⟨ms, hms, hr⟩ := forall₂_mem_right hf ls hls
  unfold UnitCell.pair at hr
  cases hmap : u.mapping ms.1 ms.2 with
  | error e => rw [hmap] at hr; simp at hr
  | ok f =>
    rw [hmap] at hr
    obtain rfl := (Except.ok.inj hr).symm
    obtain ⟨q, hq, rfl⟩ := List.mem_map.mp hbc
    simp only at hm hs ej
    have hq' : q < vec := by simpa using hq
    have hvec : 0 < vec := by omega
    have j_eq : j = j' := by
      have := congrArg (· / vec) ej
      simp only [Nat.mul_comm _ vec, Nat.mul_add_div hvec, Nat.div_eq_of_lt hc, Nat.div_eq_of_lt hq',
        Nat.add_zero] at this
      exact this
    subst j_eq
    have hjl := (List.getElem?_eq_some_iff.mp e2).1
    have hpj : u.points.getD j 0 = pj := by
      rw [List.getD_eq_getElem?_getD, e2, Option.getD_some]
    rw [hpj] at hka hkb
    rcases hpairs ms hms with hcor | ⟨_, h2⟩
    · obtain ⟨cc, _, _, rfl⟩ := (mem_cornerPairs h ms).mp hcor
      have := ((cornerFn_iff h (cornerSet 3 cc) pj).mp hs).1
      have hk : k ∈ hitSet a b pj := by rw [this]; simp
      rcases (mem_hitSet a b pj k).mp hk with hk | hk
      · exact hka hk
      · exact hkb hk
    · rw [h2 pj (List.mem_of_getElem? e2)] at hs
      simp at hs

/-- Every structured node set (product of coordinate lists that contain both bounds) is suited to
periodicity. -/
theorem grid_periodicBox (xs : Fin d → Finset K) (a b : Fin d → K) (ha : ∀ i, a i ∈ xs i)
    (hb : ∀ i, b i ∈ xs i) (hlt : ∀ i, a i < b i) (hbox : ∀ i, ∀ x ∈ xs i, a i ≤ x ∧ x ≤ b i) :
    PeriodicBox (Fintype.piFinset xs).toList a b := by
  refine ⟨Finset.nodup_toList _, hlt, ?_, ?_, ?_, ?_⟩
  · intro p hp i
    rw [Finset.mem_toList, Fintype.mem_piFinset] at hp
    exact hbox i _ (hp i)
  · rw [Finset.mem_toList, Fintype.mem_piFinset]; exact ha
  · intro p hp i _
    rw [Finset.mem_toList, Fintype.mem_piFinset] at hp ⊢
    intro j
    by_cases hj : j = i
    · subst hj; simpa using hb j
    · simpa [hj] using hp j
  · intro p hp i _
    rw [Finset.mem_toList, Fintype.mem_piFinset] at hp ⊢
    intro j
    by_cases hj : j = i
    · subst hj; simpa using ha j
    · simpa [hj] using hp j

/-- **C24** (the location functions). In any dimension, with any combination of flags: a point is
selected by `face_function` exactly when it lies on the plane, is not a corner if either exclusion is
requested, and is not on an edge if edges are excluded; by `edge_function` when all listed coordinates
match and it is not a corner if corners are excluded; by `corner_function` when it is that point. -/
theorem C24_location_functions (u : UnitCell K d) (p : Fin d → K) :
    (∀ axis value exEdge exCorner, u.faceFn axis value exEdge exCorner p = true ↔
      p axis = value ∧
      (exEdge = true ∨ exCorner = true → (hitSet u.lb u.ub p).card ≠ d) ∧
      (exEdge = true → (hitSet u.lb u.ub p).card + 1 ≠ d)) ∧
    (∀ av exCorner, u.edgeFn av exCorner p = true ↔
      (∀ q ∈ av, p q.1 = q.2) ∧ (exCorner = true → (hitSet u.lb u.ub p).card ≠ d)) ∧
    (∀ values, UnitCell.cornerFn values p = true ↔ p = values) := by
  refine ⟨?_, ?_, ?_⟩
  · intro axis value e c
    unfold UnitCell.faceFn UnitCell.isEdge UnitCell.isCorner
    rw [hits_eq]
    cases e <;> cases c <;>
      simp only [Bool.and_eq_true, decide_eq_true_eq, Bool.not_eq_true', beq_eq_false_iff_ne, ne_eq,
        Bool.and_eq_false_iff, Bool.not_eq_false', beq_iff_eq, Bool.false_eq_true, false_and,
        and_false, if_false, if_true, and_self, or_self, true_or, or_true, true_imp_iff, false_imp_iff,
        and_true, Bool.false_and, Bool.and_false, Bool.and_true, Bool.true_and, false_or, or_false,
        reduceCtorEq]
    all_goals
      constructor
      · intro h
        refine ⟨by tauto, ?_⟩
        constructor <;> intros <;> omega
      · intro h
        refine ⟨by tauto, ?_⟩
        constructor <;> omega
  · intro av c
    unfold UnitCell.edgeFn UnitCell.isCorner
    rw [hits_eq]
    cases c <;> simp
  · intro values
    unfold UnitCell.cornerFn
    simp [List.all_eq_true, funext_iff]

end

/-! ### Concrete cases -/

/-- The `3 × 3 × 3` grid at the origin. -/
theorem exBox3 : PeriodicBox (Fintype.piFinset (fun _ : Fin 3 => ({0, 1, 2} : Finset ℚ))).toList
    0 (fun _ => 2) :=
  grid_periodicBox _ _ _ (by simp) (by simp) (by simp)
    (by intro i x hx; simp only [Finset.mem_insert, Finset.mem_singleton] at hx
        rcases hx with rfl | rfl | rfl <;> norm_num)

example := C24_covers_boundary_3D_partial (u := ⟨_⟩) exBox3 3 (fun p q => decide (p = q)) (by simp)

/-- A `3 × 3` grid away from the origin. -/
theorem exBox2 : PeriodicBox (Fintype.piFinset (fun _ : Fin 2 => ({10, 11, 12} : Finset ℚ))).toList
    (fun _ => 10) (fun _ => 12) :=
  grid_periodicBox _ _ _ (by simp) (by simp) (by norm_num)
    (by intro i x hx; simp only [Finset.mem_insert, Finset.mem_singleton] at hx
        rcases hx with rfl | rfl | rfl <;> norm_num)

example := C24_covers_boundary_2D (u := ⟨_⟩) exBox2 2 (fun p q => decide (p = q)) (by simp)

/-- A `3 × 3 × 3` grid on `[10, 12]³`: the hypotheses of the violation hold, and the centre of the upper
face is one of its nodes. -/
theorem exBox3far : PeriodicBox (Fintype.piFinset (fun _ : Fin 3 => ({10, 11, 12} : Finset ℚ))).toList
    (fun _ => 10) (fun _ => 12) :=
  grid_periodicBox _ _ _ (by simp) (by simp) (by norm_num)
    (by intro i x hx; simp only [Finset.mem_insert, Finset.mem_singleton] at hx
        rcases hx with rfl | rfl | rfl <;> norm_num)

example := C24_off_origin_3D_unpaired (u := ⟨_⟩) exBox3far (by norm_num) 3 (fun p q => decide (p = q))

example : (fun i : Fin 3 => if i = 2 then (12 : ℚ) else 11) ∈
    (Fintype.piFinset (fun _ : Fin 3 => ({10, 11, 12} : Finset ℚ))).toList := by
  rw [Finset.mem_toList, Fintype.mem_piFinset]
  intro i
  by_cases h : i = 2 <;> simp [h]

end Verif.Props
