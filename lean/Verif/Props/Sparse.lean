import Verif.Props.Band

/-!
# C35: `SparseDesign` is a finite map with default
-/

namespace Verif.Props

open Verif.Model Verif.Lemmas

section
variable {α : Type*}

/-- The value an update lists for `q`. -/
def listedBy (u : List ℕ × List α) (q : ℕ) : Option α := (u.1.zip u.2).lookup q

/-- The value last assigned to `q` by a history of (ids, values) pairs, the oldest first. -/
def lastAssigned : List (List ℕ × List α) → ℕ → Option α
  | [], _ => none
  | u :: rest, q => (lastAssigned rest q).or (listedBy u q)

/-- A design after a history: constructed from the first pair, updated with the others. -/
def designAfter (d : α) : List (List ℕ × List α) → Except PyErr (SparseDesign α)
  | [] => SparseDesign.mk' d [] []
  | u :: rest => rest.foldlM (fun s u => s.update d u.1 u.2) =<< SparseDesign.mk' d u.1 u.2

/-- An admissible update: distinct ids below `2^31`, one value for each. -/
def GoodUpdate (u : List ℕ × List α) : Prop := u.1.Nodup ∧ (∀ i ∈ u.1, i < 2 ^ 31) ∧ u.2.length = u.1.length

/-- The state represents the map `f`. -/
structure Represents (s : SparseDesign α) (f : ℕ → Option α) : Prop where
  sorted : s.ids.Pairwise (· < ·)
  len : s.vals.length = s.ids.length
  lt : ∀ i ∈ s.ids, i < 2 ^ 31
  val : ∀ q v, f q = some v ↔ (q, v) ∈ s.ids.zip s.vals

theorem lookup_mem_zip {ids : List ℕ} {vals : List α} (hn : ids.Nodup) (q : ℕ) (v : α) :
    (ids.zip vals).lookup q = some v ↔ (q, v) ∈ ids.zip vals := by
  induction ids generalizing vals with
  | nil => simp
  | cons i is ih =>
    cases vals with
    | nil => simp
    | cons w ws =>
      rw [List.zip_cons_cons, List.lookup_cons, List.mem_cons, Prod.mk.injEq]
      rw [List.nodup_cons] at hn
      by_cases h : q = i
      · subst h
        simp only [beq_self_eq_true, Option.some.injEq, true_and]
        constructor
        · intro h; exact Or.inl h.symm
        · rintro (h | h)
          · exact h.symm
          · exact absurd (List.of_mem_zip h).1 hn.1
      · have : (q == i) = false := by simpa using h
        simp only [this, h, false_and, false_or]
        exact ih hn.2

theorem mk_represents (d : α) (ids : List ℕ) (vals : List α) (hg : GoodUpdate (ids, vals)) :
    ∃ s, SparseDesign.mk' d ids vals = .ok s ∧ Represents s (listedBy (ids, vals)) := by
  obtain ⟨hn, hlt, hl⟩ := hg
  refine ⟨⟨gather 0 ids (argsort ids), gather d vals (argsort ids)⟩, ?_, ?_, ?_, ?_, ?_⟩
  · unfold SparseDesign.mk'
    rw [if_pos]
    rw [List.all_eq_true]
    intro i hi
    simpa using hlt i hi
  · have h1 := gather_argsort_sorted ids
    have h2 : (gather 0 ids (argsort ids)).Nodup := (gather_argsort_perm ids).nodup_iff.2 hn
    exact List.Pairwise.imp₂ (fun a b h k => lt_of_le_of_ne h k) h1 h2
  · simp [gather]
  · intro i hi
    exact hlt i ((gather_argsort_perm ids).mem_iff.1 hi)
  · intro q v
    unfold listedBy
    rw [lookup_mem_zip hn, (gather_zip_perm d ids vals hl (argsort_perm ids)).mem_iff]

theorem compress_eq_filter {β : Type*} (xs : List β) (p : β → Bool) : compress xs (xs.map p) = xs.filter p := by
  induction xs with
  | nil => simp [compress]
  | cons x xs ih =>
    rw [List.map_cons, compress_cons, ih, List.filter_cons]

theorem compress_zip {β γ : Type*} (xs : List β) (ys : List γ) (mask : List Bool) :
    (compress xs mask).zip (compress ys mask) = compress (xs.zip ys) mask ∨ xs.length ≠ ys.length := by
  induction xs generalizing ys mask with
  | nil => left; simp [compress]
  | cons x xs ih =>
    cases ys with
    | nil => right; simp
    | cons y ys =>
      cases mask with
      | nil => left; simp [compress]
      | cons b bs =>
        rcases ih ys bs with h | h
        · left
          rw [compress_cons, compress_cons, List.zip_cons_cons, compress_cons]
          cases b <;> simp [h]
        · right; simpa using h

theorem compress_length_eq {β γ : Type*} (xs : List β) (ys : List γ) (mask : List Bool) (h : xs.length = ys.length) :
    (compress xs mask).length = (compress ys mask).length := by
  induction xs generalizing ys mask with
  | nil =>
    have : ys = [] := by simpa using h.symm
    subst this; simp [compress]
  | cons x xs ih =>
    cases ys with
    | nil => simp at h
    | cons y ys =>
      cases mask with
      | nil => simp [compress]
      | cons b bs =>
        rw [compress_cons, compress_cons]
        have := ih ys bs (by simpa using h)
        cases b <;> simp [this]

theorem update_represents (d : α) (s : SparseDesign α) (f : ℕ → Option α) (hs : Represents s f) (u : List ℕ × List α)
    (hu : GoodUpdate u) :
    ∃ s', s.update d u.1 u.2 = .ok s' ∧ Represents s' (fun q => (listedBy u q).or (f q)) := by
  obtain ⟨hn, hlt, hl⟩ := hu
  by_cases h0 : s.ids.length = 0
  · obtain ⟨s', e, h⟩ := mk_represents d u.1 u.2 ⟨hn, hlt, hl⟩
    refine ⟨s', by unfold SparseDesign.update; rw [if_neg (by simpa using h0)]; exact e, ?_⟩
    have hf : f = fun _ => none := by
      funext q
      cases hq : f q with
      | none => rfl
      | some v =>
        have := (hs.val q v).1 hq
        rw [List.length_eq_zero_iff.1 h0] at this
        simp at this
    subst hf
    refine ⟨h.sorted, h.len, h.lt, ?_⟩
    intro q v
    rw [Option.or_none]
    exact h.val q v
  · set keep := s.ids.map fun i => !decide (i ∈ u.1) with hkeep
    have hci : compress s.ids keep = s.ids.filter fun i => !decide (i ∈ u.1) := compress_eq_filter _ _
    have hlen := compress_length_eq s.ids s.vals keep hs.len.symm
    have hzip := (compress_zip s.ids s.vals keep).resolve_right (fun h => h hs.len.symm)
    have hnd : (compress s.ids keep ++ u.1).Nodup := by
      rw [List.nodup_append]
      refine ⟨?_, hn, ?_⟩
      · rw [hci]
        exact (hs.sorted.imp fun h => h.ne : s.ids.Nodup).filter _
      · intro a ha b hb hab
        subst hab
        rw [hci, List.mem_filter] at ha
        simp [hb] at ha
    have hgood : GoodUpdate (compress s.ids keep ++ u.1, compress s.vals keep ++ u.2) := by
      refine ⟨hnd, ?_, by simp [hlen, hl]⟩
      intro i hi
      rw [List.mem_append] at hi
      rcases hi with hi | hi
      · rw [hci, List.mem_filter] at hi
        exact hs.lt i hi.1
      · exact hlt i hi
    obtain ⟨s', e, h⟩ := mk_represents d _ _ hgood
    refine ⟨s', by unfold SparseDesign.update; rw [if_pos h0]; exact e, h.sorted, h.len, h.lt, ?_⟩
    intro q v
    rw [← h.val q v]
    unfold listedBy at *
    rw [lookup_mem_zip hnd, List.zip_append hlen, List.mem_append, hzip]
    have hfilter : (q, v) ∈ compress (s.ids.zip s.vals) keep ↔ (q, v) ∈ s.ids.zip s.vals ∧ q ∉ u.1 := by
      have hk : keep = (s.ids.zip s.vals).map fun p => !decide (p.1 ∈ u.1) := by
        rw [hkeep]
        have : s.ids = (s.ids.zip s.vals).map (·.1) := by
          rw [List.map_fst_zip (by rw [hs.len])]
        conv_lhs => rw [this]
        rw [List.map_map]
        rfl
      rw [hk, compress_eq_filter, List.mem_filter]
      simp
    rw [hfilter, ← lookup_mem_zip hn, ← hs.val]
    by_cases hq : q ∈ u.1
    · have : ∃ w, (u.1.zip u.2).lookup q = some w := by
        obtain ⟨k, hk, rfl⟩ := List.mem_iff_getElem.1 hq
        refine ⟨u.2[k]'(by omega), ?_⟩
        rw [lookup_mem_zip hn]
        rw [List.mem_iff_getElem]
        exact ⟨k, by simp [hl, hk], by simp⟩
      obtain ⟨w, hw⟩ := this
      simp [hw, hq]
    · have : (u.1.zip u.2).lookup q = none := by
        cases hw : (u.1.zip u.2).lookup q with
        | none => rfl
        | some w =>
          rw [lookup_mem_zip hn] at hw
          exact absurd (List.of_mem_zip hw).1 hq
      simp [this, hq]

theorem represents_congr {s : SparseDesign α} {f g : ℕ → Option α} (h : Represents s f) (e : f = g) : Represents s g :=
  e ▸ h

theorem foldlM_represents (d : α) (rest : List (List ℕ × List α)) (hr : ∀ u ∈ rest, GoodUpdate u) (s : SparseDesign α)
    (f : ℕ → Option α) (hs : Represents s f) :
    ∃ s', rest.foldlM (fun s u => s.update d u.1 u.2) s = .ok s' ∧
      Represents s' fun q => (lastAssigned rest q).or (f q) := by
  induction rest generalizing s f with
  | nil => exact ⟨s, rfl, represents_congr hs (by funext q; simp [lastAssigned])⟩
  | cons u rest ih =>
    obtain ⟨s1, e1, h1⟩ := update_represents d s f hs u (hr u (by simp))
    obtain ⟨s2, e2, h2⟩ := ih (fun w hw => hr w (by simp [hw])) s1 _ h1
    refine ⟨s2, ?_, represents_congr h2 ?_⟩
    · rw [List.foldlM_cons, e1]
      exact e2
    · funext q
      simp [lastAssigned, Option.or_assoc]

theorem design_represents (d : α) (hist : List (List ℕ × List α)) (hh : ∀ u ∈ hist, GoodUpdate u) :
    ∃ s, designAfter d hist = .ok s ∧ Represents s (lastAssigned hist) := by
  cases hist with
  | nil =>
    obtain ⟨s, e, h⟩ := mk_represents d [] [] ⟨by simp, by simp, rfl⟩
    exact ⟨s, e, represents_congr h (by funext q; simp [lastAssigned, listedBy])⟩
  | cons u rest =>
    obtain ⟨s, e, h⟩ := mk_represents d u.1 u.2 (hh u (by simp))
    obtain ⟨s', e', h'⟩ := foldlM_represents d rest (fun w hw => hh w (by simp [hw])) s _ h
    refine ⟨s', ?_, represents_congr h' (by funext q; simp [lastAssigned, listedBy])⟩
    change (SparseDesign.mk' d u.1 u.2).bind (fun s => rest.foldlM (fun s u => s.update d u.1 u.2) s) = _
    rw [e]
    exact e'

theorem lookup_of_represents (s : SparseDesign α) (f : ℕ → Option α) (h : Represents s f) (q : ℤ) (hq : -2 ^ 31 ≤ q)
    (hq2 : q < 2 ^ 31) (default : α) :
    s.lookup q default = if q < 0 then default else (f q.toNat).getD default := by
  have hw : toInt32 q = q := by unfold toInt32; omega
  unfold SparseDesign.lookup
  simp only [hw]
  by_cases h0 : s.ids.length = 0
  · rw [if_pos h0]
    have : f q.toNat = none := by
      cases hv : f q.toNat with
      | none => rfl
      | some v =>
        have := (h.val _ v).1 hv
        rw [List.length_eq_zero_iff.1 h0] at this
        simp at this
    rw [this]; simp
  · rw [if_neg h0]
    by_cases hneg : q < 0
    · rw [if_pos hneg, if_pos hneg, if_neg]
      rintro ⟨_, h2⟩
      omega
    · rw [if_neg hneg, if_neg hneg]
      by_cases hm : q.toNat ∈ s.ids
      · obtain ⟨h1, h2⟩ := searchsorted_mem h.sorted hm
        have hmin : min (searchsorted s.ids q.toNat) (s.ids.length - 1) = searchsorted s.ids q.toNat := by omega
        rw [hmin, if_pos ⟨h1, by rw [h2]; omega⟩]
        have hv : f q.toNat = some (s.vals.getD (searchsorted s.ids q.toNat) default) := by
          rw [h.val, List.mem_iff_getElem]
          refine ⟨searchsorted s.ids q.toNat, by simp [h.len, h1], ?_⟩
          rw [List.getElem_zip, Prod.mk.injEq]
          constructor
          · rw [List.getD_eq_getElem _ _ h1] at h2; exact h2
          · rw [List.getD_eq_getElem _ _ (by rw [h.len]; exact h1)]
        rw [hv]; rfl
      · have hno : f q.toNat = none := by
          cases hv : f q.toNat with
          | none => rfl
          | some v => exact absurd (List.of_mem_zip ((h.val _ v).1 hv)).1 hm
        rw [hno, if_neg]
        · rfl
        · rintro ⟨h1, h2⟩
          apply hm
          have hmin : min (searchsorted s.ids q.toNat) (s.ids.length - 1) = searchsorted s.ids q.toNat := by omega
          rw [hmin, List.getD_eq_getElem _ _ h1] at h2
          have : q.toNat = s.ids[searchsorted s.ids q.toNat] := by omega
          rw [this]
          exact List.getElem_mem h1

/-- C35 (partial: queries representable as int32). After any history of updates, each listing distinct cells with
ids below `2^31`, the design exists and `gather` returns for each queried cell the value last assigned to it, and
the default for a cell never assigned (and for negative ids). Missing: queries of `2^31` and more, where it fails
(`C35_large_query_aliases`). -/
theorem C35_gather_is_last_assigned_partial (d : α) (hist : List (List ℕ × List α)) (hh : ∀ u ∈ hist, GoodUpdate u) :
    ∃ s, designAfter d hist = .ok s ∧ ∀ (q : ℤ), -2 ^ 31 ≤ q → q < 2 ^ 31 → ∀ default : α,
      s.lookup q default = if q < 0 then default else (lastAssigned hist q.toNat).getD default := by
  obtain ⟨s, e, h⟩ := design_represents d hist hh
  exact ⟨s, e, fun q h1 h2 default => lookup_of_represents s _ h q h1 h2 default⟩

/-- C35: `active_ids` lists, in increasing order, exactly the cells whose current value is above the threshold. -/
theorem C35_active_ids (d : α) (hist : List (List ℕ × List α)) (hh : ∀ u ∈ hist, GoodUpdate u) (above : α → Bool) :
    ∃ s, designAfter d hist = .ok s ∧ (s.activeIds above).Pairwise (· < ·) ∧
      ∀ q, q ∈ s.activeIds above ↔ ∃ v, lastAssigned hist q = some v ∧ above v = true := by
  obtain ⟨s, e, h⟩ := design_represents d hist hh
  have hz : s.activeIds above = ((s.ids.zip s.vals).filter fun p => above p.2).map (·.1) := by
    unfold SparseDesign.activeIds
    have h1 : s.ids = (s.ids.zip s.vals).map (·.1) := by rw [List.map_fst_zip (by rw [h.len])]
    have h2 : s.vals.map above = (s.ids.zip s.vals).map fun p => above p.2 := by
      conv_lhs => rw [← List.map_snd_zip (l₁ := s.ids) (l₂ := s.vals) (by rw [h.len])]
      rw [List.map_map]; rfl
    rw [h2, ← compress_eq_filter, compress_map, ← h1]
  refine ⟨s, e, ?_, ?_⟩
  · rw [hz]
    have : (((s.ids.zip s.vals).filter fun p => above p.2).map (·.1)).Sublist ((s.ids.zip s.vals).map (·.1)) :=
      List.filter_sublist.map _
    rw [List.map_fst_zip (by rw [h.len])] at this
    exact h.sorted.sublist this
  · intro q
    rw [hz, List.mem_map]
    constructor
    · rintro ⟨⟨q', v⟩, hm, rfl⟩
      rw [List.mem_filter] at hm
      exact ⟨v, (h.val _ _).2 hm.1, hm.2⟩
    · rintro ⟨v, h1, h2⟩
      exact ⟨(q, v), List.mem_filter.2 ⟨(h.val _ _).1 h1, h2⟩, rfl⟩

/-- C35: `band_cells` contains exactly the kept cells and the grid cells within `margin` (in every direction) of a
cell above the threshold. -/
theorem C35_band_cells (d : α) (g : Grid) (hist : List (List ℕ × List α)) (hh : ∀ u ∈ hist, GoodUpdate u)
    (hg : ∀ u ∈ hist, ∀ i ∈ u.1, i < g.numCells) (above : α → Bool) (margin : ℤ) (keep : List ℕ) :
    ∃ s, designAfter d hist = .ok s ∧ ∀ f, f ∈ s.bandCells g above margin (some keep) ↔
      f ∈ keep ∨ ∃ q v, lastAssigned hist q = some v ∧ above v = true ∧ NearCells g margin.toNat q f := by
  obtain ⟨s, e, _, h⟩ := C35_active_ids d hist hh above
  have hlt : ∀ q v, lastAssigned hist q = some v → q < g.numCells := by
    clear h e hh
    induction hist with
    | nil => intro q v h; simp [lastAssigned] at h
    | cons u rest ih =>
      intro q v h
      rw [lastAssigned] at h
      rcases Option.or_eq_some_iff.1 h with h | ⟨_, h⟩
      · exact ih (fun w hw => hg w (by simp [hw])) q v h
      · apply hg u (by simp)
        have hlm : ∀ l : List (ℕ × α), l.lookup q = some v → (q, v) ∈ l := by
          intro l
          induction l with
          | nil => simp
          | cons p ps ihp =>
            rw [List.lookup_cons]
            intro hl
            by_cases hqp : q = p.1
            · have hb : (q == p.1) = true := by simpa using hqp
              rw [hb] at hl
              simp only [Option.some.injEq] at hl
              rw [List.mem_cons]
              exact Or.inl (Prod.ext hqp hl.symm)
            · have hb : (q == p.1) = false := by simpa using hqp
              rw [hb] at hl
              exact List.mem_cons_of_mem _ (ihp hl)
        exact (List.of_mem_zip (hlm _ h)).1
  refine ⟨s, e, ?_⟩
  intro f
  unfold SparseDesign.bandCells
  simp only [mem_unique, List.mem_append]
  rw [(C31_dilation_is_box_neighbourhood g (s.activeIds above) margin (by
    intro q hq
    obtain ⟨v, hv, _⟩ := (h q).1 hq
    exact hlt q v hv)).2 f, or_comm]
  apply or_congr Iff.rfl
  constructor
  · rintro ⟨q, hq, hn⟩
    obtain ⟨v, hv, ha⟩ := (h q).1 hq
    exact ⟨q, v, hv, ha, hn⟩
  · rintro ⟨q, v, hv, ha, hn⟩
    exact ⟨q, (h q).2 ⟨v, hv, ha⟩, hn⟩

/-- C35: an id of `2^31` or more is refused when the design is built or updated. -/
theorem C35_large_id_refused (d : α) (s : SparseDesign α) (ids : List ℕ) (vals : List α) (i : ℕ) (hi : i ∈ ids)
    (h : 2 ^ 31 ≤ i) :
    SparseDesign.mk' d ids vals = .error .assertionError ∧ s.update d ids vals = .error .assertionError := by
  have key : ∀ (l : List ℕ) (w : List α), i ∈ l → SparseDesign.mk' d l w = .error .assertionError := by
    intro l w hl
    unfold SparseDesign.mk'
    rw [if_neg]
    rw [List.all_eq_true]
    intro hc
    have := hc i hl
    simp at this
    omega
  refine ⟨key _ _ hi, ?_⟩
  unfold SparseDesign.update
  split
  · exact key _ _ (by simp [hi])
  · exact key _ _ hi

end

/-- C35 fails for queries of `2^31` and more, which a grid that large has: cell `2^32` was never assigned but
`gather` returns the value of cell 0. -/
theorem C35_large_query_aliases :
    ∃ s, designAfter 0 [([0, 1], [5, 6])] = .ok s ∧ lastAssigned [([0, 1], [5, 6])] (2 ^ 32) = none ∧
      s.lookup (2 ^ 32) 0 = 5 ∧ 2 ^ 32 < (Grid.mk 1700 1700 1700).numCells := by
  refine ⟨⟨[0, 1], [5, 6]⟩, rfl, by decide, by decide, by decide⟩

/-- A history with an overwritten, an added and an untouched cell. -/
example : GoodUpdate ([4, 2], [10, 20]) ∧ GoodUpdate ([2, 7], [30, 40]) ∧
    (lastAssigned [([4, 2], [10, 20]), ([2, 7], [30, 40])] 2 = some 30) ∧
    (lastAssigned [([4, 2], [10, 20]), ([2, 7], [30, 40])] 4 = some 10) ∧
    (lastAssigned [([4, 2], [10, 20]), ([2, 7], [30, 40])] 5 = none) ∧
    (designAfter 0 [([4, 2], [10, 20]), ([2, 7], [30, 40])]).toOption.map (fun s => (s.ids, s.vals)) =
      some ([2, 4, 7], [30, 10, 40]) := by
  refine ⟨⟨by decide, by decide, rfl⟩, ⟨by decide, by decide, rfl⟩, by decide, by decide, by decide, by decide⟩

end Verif.Props
