import Verif.Spec.BC
import Verif.Lemmas.Jacobian
import Verif.Props.Layout

/-! # Dirichlet conditions (proof machinery) -/

namespace Verif.Model

/-! ## Stable sort and first occurrences -/

theorem compress_cons {β : Type*} (x : β) (xs : List β) (b : Bool) (bs : List Bool) :
    compress (x :: xs) (b :: bs) = if b then x :: compress xs bs else compress xs bs := by
  cases b <;> simp [compress]

theorem compress_map {β γ : Type*} (f : β → γ) (xs : List β) (mask : List Bool) :
    (compress xs mask).map f = compress (xs.map f) mask := by
  induction xs generalizing mask with
  | nil => simp [compress]
  | cons x xs ih =>
    cases mask with
    | nil => simp [compress]
    | cons b bs =>
      rw [List.map_cons, compress_cons, compress_cons]
      cases b <;> simp [ih]

theorem heads_from {β : Type*} (f : β → ℕ) (lt : β → β → Prop) (xs : List β) (p : ℕ)
    (h : xs.Pairwise (fun a b => f a < f b ∨ (f a = f b ∧ lt a b))) (hp : ∀ x ∈ xs, p ≤ f x) :
    ∀ y ∈ compress xs (newFrom p (xs.map f)),
      y ∈ xs ∧ p < f y ∧ ∀ x ∈ xs, f x = f y → x = y ∨ lt y x := by
  induction xs generalizing p with
  | nil => intro y hy; simp [compress] at hy
  | cons z zs ih =>
    rw [List.pairwise_cons] at h
    have hz := hp z (by simp)
    have ih' := ih (f z) h.2 (by
      intro x hx
      rcases h.1 x hx with h1 | h1
      · exact h1.le
      · exact h1.1.le)
    intro y hy
    rw [List.map_cons, newFrom, compress_cons] at hy
    have tail : y ∈ compress zs (newFrom (f z) (zs.map f)) →
        y ∈ z :: zs ∧ p < f y ∧ ∀ x ∈ z :: zs, f x = f y → x = y ∨ lt y x := by
      intro hy
      obtain ⟨a, b, c⟩ := ih' y hy
      refine ⟨List.mem_cons_of_mem _ a, by omega, ?_⟩
      intro x hx e
      rcases List.mem_cons.mp hx with rfl | hx
      · omega
      · exact c x hx e
    by_cases e : f z = p
    · simp only [ne_eq, e, not_true_eq_false, decide_false, Bool.false_eq_true, if_false] at hy
      rw [← e] at hy
      exact tail hy
    · simp only [ne_eq, e, not_false_eq_true, decide_true, if_true] at hy
      rcases List.mem_cons.mp hy with rfl | hy
      · refine ⟨by simp, by omega, ?_⟩
        intro x hx e'
        rcases List.mem_cons.mp hx with rfl | hx
        · exact .inl rfl
        · rcases h.1 x hx with h1 | h1
          · omega
          · exact .inr h1.2
      · exact tail hy

theorem heads_isNew {β : Type*} (f : β → ℕ) (lt : β → β → Prop) (xs : List β)
    (h : xs.Pairwise (fun a b => f a < f b ∨ (f a = f b ∧ lt a b))) :
    ∀ y ∈ compress xs (isNew (xs.map f)), y ∈ xs ∧ ∀ x ∈ xs, f x = f y → x = y ∨ lt y x := by
  cases xs with
  | nil => intro y hy; simp [compress] at hy
  | cons z zs =>
    rw [List.pairwise_cons] at h
    intro y hy
    rw [List.map_cons, isNew_cons, compress_cons, if_pos rfl] at hy
    rcases List.mem_cons.mp hy with rfl | hy
    · refine ⟨by simp, ?_⟩
      intro x hx e'
      rcases List.mem_cons.mp hx with rfl | hx
      · exact .inl rfl
      · rcases h.1 x hx with h1 | h1
        · omega
        · exact .inr h1.2
    · obtain ⟨a, b, c⟩ := heads_from f lt zs (f z) h.2 (by
        intro x hx
        rcases h.1 x hx with h1 | h1
        · exact h1.le
        · exact h1.1.le) y hy
      refine ⟨List.mem_cons_of_mem _ a, ?_⟩
      intro x hx e
      rcases List.mem_cons.mp hx with rfl | hx
      · omega
      · exact c x hx e

theorem unique_fst (xs : List ℕ) :
    (uniqueWithIndex xs).1 = uniq (gather 0 xs (argsort xs)) := by
  unfold uniqueWithIndex uniq
  rfl

theorem unique_fst_eq_map (xs : List ℕ) :
    (uniqueWithIndex xs).1 = (uniqueWithIndex xs).2.map (fun t => xs.getD t 0) := by
  unfold uniqueWithIndex
  simp only
  rw [compress_map]
  rfl

theorem unique_index_first (xs : List ℕ) : ∀ t ∈ (uniqueWithIndex xs).2,
    t < xs.length ∧ ∀ t' < xs.length, xs.getD t' 0 = xs.getD t 0 → t ≤ t' := by
  intro t ht
  have := heads_isNew (fun i => xs.getD i 0) (· < ·) (argsort xs) (argsort_pairwise_lex xs) t ht
  refine ⟨argsort_mem.mp this.1, ?_⟩
  intro t' ht' e
  rcases this.2 t' (argsort_mem.mpr ht') e with h | h
  · omega
  · exact h.le

/-- Value of the first entry with row `d`. -/
def firstVal {R : Type*} [Zero R] (es : List (ℕ × R)) (d : ℕ) : R :=
  ((es.find? (fun e => e.1 == d)).map (·.2)).getD 0

theorem sorted_unique_vals {R : Type*} [Zero R] (es : List (ℕ × R)) :
    let sortIdx := argsort (es.map (·.1))
    let u := uniqueWithIndex (gather 0 (es.map (·.1)) sortIdx)
    gather 0 (gather 0 (es.map (·.2)) sortIdx) u.2 = u.1.map (firstVal es) := by
  intro sortIdx u
  rw [show u.1 = u.2.map (fun t => (gather 0 (es.map (·.1)) sortIdx).getD t 0) from
    unique_fst_eq_map _, List.map_map]
  unfold gather at *
  apply List.map_congr_left
  intro t ht
  have hfirst := unique_index_first _ t ht
  set rows1 := sortIdx.map (fun i => (es.map (·.1)).getD i 0) with hr1
  have hlen1 : rows1.length = es.length := by simp [hr1, sortIdx]
  have hslen : sortIdx.length = es.length := by simp [sortIdx]
  have htl : t < es.length := by rw [← hlen1]; exact hfirst.1
  have htS : t < sortIdx.length := by omega
  have hj0 : sortIdx[t] < es.length := by
    have : sortIdx[t] ∈ sortIdx := List.getElem_mem htS
    have := argsort_mem.mp this
    simpa using this
  have hget : ∀ x (hx : x < sortIdx.length), rows1.getD x 0 = (es.map (·.1)).getD sortIdx[x] 0 := by
    intro x hx
    rw [hr1, List.getD_eq_getElem _ _ (by simpa using hx), List.getElem_map]
  simp only [Function.comp]
  rw [List.getD_eq_getElem _ _ (by simpa using htS), List.getElem_map, hget t htS]
  have e2 : (es.map (·.2)).getD sortIdx[t] 0 = es[sortIdx[t]].2 := by
    rw [List.getD_eq_getElem _ _ (by simpa using hj0), List.getElem_map]
  have e1 : (es.map (·.1)).getD sortIdx[t] 0 = es[sortIdx[t]].1 := by
    rw [List.getD_eq_getElem _ _ (by simpa using hj0), List.getElem_map]
  rw [e1, e2]
  unfold firstVal
  have : es.find? (fun e => e.1 == es[sortIdx[t]].1) = some es[sortIdx[t]] := by
    rw [List.find?_eq_some_iff_getElem]
    refine ⟨by simp, sortIdx[t], hj0, rfl, ?_⟩
    intro j hj
    by_contra hcon
    have hjeq : es[j].1 = es[sortIdx[t]].1 := by simpa using hcon
    have hjl : j < es.length := by omega
    have hjm : j ∈ sortIdx := argsort_mem.mpr (by simpa using hjl)
    obtain ⟨x, hx, ex⟩ := List.getElem_of_mem hjm
    have h1 : rows1.getD x 0 = rows1.getD t 0 := by
      rw [hget x hx, hget t htS, e1, ex, List.getD_eq_getElem _ _ (by simpa using hjl),
        List.getElem_map, hjeq]
    have hle := hfirst.2 x (show x < rows1.length by omega) h1
    rcases Nat.eq_or_lt_of_le hle with h | h
    · subst h; omega
    · have hp := List.pairwise_iff_getElem.mp (argsort_pairwise_lex (es.map (·.1))) t x htS hx h
      rcases hp with hp | hp
      · change (es.map (·.1)).getD sortIdx[t] 0 < (es.map (·.1)).getD sortIdx[x] 0 at hp
        rw [hget x hx, hget t htS] at h1
        omega
      · have : sortIdx[t] < sortIdx[x] := hp.2
        omega
  rw [this]
  rfl

/-! ## Scatter -/

theorem scatterSet_length {β : Type*} (arr : List β) (idx : List ℕ) (vals : List β) :
    (scatterSet arr idx vals).length = arr.length := by
  unfold scatterSet
  generalize idx.zip vals = ps
  induction ps generalizing arr with
  | nil => rfl
  | cons p ps ih => rw [List.foldl_cons, ih]; simp

theorem scatterSet_getD_not_mem {β : Type*} (d : β) (arr : List β) (idx : List ℕ) (vals : List β)
    (r : ℕ) (h : r ∉ idx) : (scatterSet arr idx vals).getD r d = arr.getD r d := by
  induction idx generalizing arr vals with
  | nil => rfl
  | cons i is ih =>
    cases vals with
    | nil => rfl
    | cons v vs =>
      simp only [List.mem_cons, not_or] at h
      have : scatterSet arr (i :: is) (v :: vs) = scatterSet (arr.set i v) is vs := rfl
      rw [this, ih _ _ h.2]
      simp [List.getD_eq_getElem?_getD, List.getElem?_set_ne (Ne.symm h.1)]

theorem scatterSet_getD_nodup {β : Type*} (d : β) (arr : List β) (idx : List ℕ) (vals : List β)
    (hn : idx.Nodup) (k : ℕ) (hk : k < idx.length) (hkv : k < vals.length)
    (hr : idx.getD k 0 < arr.length) :
    (scatterSet arr idx vals).getD (idx.getD k 0) d = vals.getD k d := by
  induction idx generalizing arr vals k with
  | nil => simp at hk
  | cons i is ih =>
    cases vals with
    | nil => simp at hkv
    | cons v vs =>
      have e : scatterSet arr (i :: is) (v :: vs) = scatterSet (arr.set i v) is vs := rfl
      rw [List.nodup_cons] at hn
      cases k with
      | zero =>
        simp only [List.getD_cons_zero] at hr ⊢
        rw [e, scatterSet_getD_not_mem _ _ _ _ _ hn.1, List.getD_eq_getElem _ _ (by simpa using hr)]
        simp
      | succ k =>
        simp only [List.getD_cons_succ] at hr ⊢
        rw [e, ih _ _ hn.2 k (by simpa using hk) (by simpa using hkv) (by simpa using hr)]

theorem scatterSet_const {β : Type*} (d c : β) (arr : List β) (idx : List ℕ) (r : ℕ)
    (hr : r < arr.length) :
    (scatterSet arr idx (idx.map (fun _ => c))).getD r d = if r ∈ idx then c else arr.getD r d := by
  induction idx generalizing arr with
  | nil => simp [scatterSet]
  | cons i is ih =>
    have e : scatterSet arr (i :: is) ((i :: is).map (fun _ => c))
        = scatterSet (arr.set i c) is (is.map (fun _ => c)) := rfl
    rw [e, ih _ (by simpa using hr)]
    by_cases h1 : r ∈ is
    · simp [h1]
    · by_cases h2 : r = i
      · subst h2
        simp [h1, List.getD_eq_getElem?_getD, hr]
      · simp [h1, h2, List.getD_eq_getElem?_getD, List.getElem?_set_ne (Ne.symm h2)]

/-! ## Collecting entries -/

theorem forCollect_ok {α β ε : Type*} (f : α → Except ε β) (g : α → β) (l : List α) (r : List β)
    (h : forCollect f l = .ok r) (hg : ∀ x ∈ l, ∀ y, f x = .ok y → y = g x) : r = l.map g := by
  induction l generalizing r with
  | nil => simp only [forCollect, Except.ok.injEq] at h; rw [← h]; rfl
  | cons x xs ih =>
    rw [forCollect] at h
    cases hx : f x with
    | error e => rw [hx] at h; cases h
    | ok y =>
      rw [hx] at h
      simp only at h
      cases hxs : forCollect f xs with
      | error e => rw [hxs] at h; cases h
      | ok ys =>
        rw [hxs] at h
        simp only [Except.ok.injEq] at h
        rw [← h, List.map_cons, hg x (by simp) y hx, ih ys hxs (fun z hz => hg z (by simp [hz]))]

theorem forCollect_of_ok {α β ε : Type*} (f : α → Except ε β) (g : α → β) (l : List α)
    (h : ∀ x ∈ l, f x = .ok (g x)) : forCollect f l = .ok (l.map g) := by
  induction l with
  | nil => rfl
  | cons x xs ih =>
    rw [forCollect, h x (by simp), ih (fun y hy => h y (by simp [hy]))]
    rfl

theorem forCollect_error {α β ε : Type*} (f : α → Except ε β) (l : List α) (e : ε)
    (hall : ∀ x ∈ l, ∀ e', f x = .error e' → e' = e) (h : ∃ x ∈ l, f x = .error e) :
    forCollect f l = .error e := by
  induction l with
  | nil => obtain ⟨x, hx, _⟩ := h; simp at hx
  | cons x xs ih =>
    rw [forCollect]
    cases hx : f x with
    | error e' => rw [hall x (by simp) e' hx]
    | ok y =>
      simp only
      rw [ih (fun z hz => hall z (by simp [hz]))]
      obtain ⟨z, hz, hze⟩ := h
      rcases List.mem_cons.mp hz with rfl | hz
      · rw [hx] at hze; cases hze
      · exact ⟨z, hz, hze⟩

theorem forCollect_error_mem {α β ε : Type*} (f : α → Except ε β) (l : List α) (e : ε)
    (h : forCollect f l = .error e) : ∃ x ∈ l, f x = .error e := by
  induction l with
  | nil => cases h
  | cons x xs ih =>
    rw [forCollect] at h
    cases hx : f x with
    | error e' => rw [hx] at h; cases h; exact ⟨x, by simp, hx⟩
    | ok y =>
      rw [hx] at h
      simp only at h
      cases hxs : forCollect f xs with
      | error e' =>
        rw [hxs] at h; cases h
        obtain ⟨z, hz, hze⟩ := ih hxs
        exact ⟨z, by simp [hz], hze⟩
      | ok ys => rw [hxs] at h; cases h

theorem forCollect_error_iff {α β ε : Type*} (f : α → Except ε β) (l : List α) :
    (∃ e, forCollect f l = .error e) ↔ ∃ x ∈ l, ∃ e, f x = .error e := by
  constructor
  · rintro ⟨e, he⟩
    obtain ⟨x, hx, hxe⟩ := forCollect_error_mem f l e he
    exact ⟨x, hx, e, hxe⟩
  · intro hx
    induction l with
    | nil => obtain ⟨x, hx, _⟩ := hx; simp at hx
    | cons y ys ih =>
      rw [forCollect]
      cases hy : f y with
      | error e => exact ⟨e, rfl⟩
      | ok z =>
        obtain ⟨x, hx, e, hxe⟩ := hx
        rcases List.mem_cons.mp hx with rfl | hx
        · rw [hy] at hxe; cases hxe
        · obtain ⟨e', he'⟩ := ih ⟨x, hx, e, hxe⟩
          simp only [he']
          exact ⟨e', rfl⟩

section entries
variable {Pt R : Type*}

/-- Entries of one component. -/
def compE (s : BCSpec Pt R) (vec off : ℕ) (pts : List Pt) (comp : ℕ) : List (ℕ × R) :=
  pts.zipIdx.flatMap (fun q => if Spec.located s.location q.1 q.2
    then [(q.2 * vec + comp + off, s.value q.1)] else [])

/-- Entries of one spec on one variable. -/
def specE (ind : ℕ) (v : Var) (off : ℕ) (pts : List Pt) (s : BCSpec Pt R) : List (ℕ × R) :=
  (specComponents s ind v.vec).flatMap (compE s v.vec off pts)

/-- All entries. -/
def allE (vars : List Var) (pts : List (List Pt)) (specs : List (BCSpec Pt R)) : List (ℕ × R) :=
  (((vars.zip (offsets vars)).zip pts).zipIdx).flatMap (fun q =>
    specs.flatMap (specE q.2 q.1.1.1 q.1.1.2 q.1.2))

theorem map_filter_eq_flatMap {α β : Type*} (l : List α) (P : α → Bool) (g : α → β) :
    (l.filter P).map g = l.flatMap (fun q => if P q then [g q] else []) := by
  induction l with
  | nil => rfl
  | cons x xs ih => cases h : P x <;> simp [h, ih]

theorem componentEntries_ok (s : BCSpec Pt R) (vec off : ℕ) (pts : List Pt) (comp : ℕ)
    (y : List (ℕ × R)) (h : componentEntries s vec off pts comp = .ok y) :
    y = compE s vec off pts comp := by
  unfold componentEntries at h
  unfold compE Spec.located
  cases hl : s.location with
  | bad => rw [hl] at h; cases h
  | one f =>
    rw [hl] at h
    simp only [Except.ok.injEq] at h
    rw [← h, map_filter_eq_flatMap]
  | two f =>
    rw [hl] at h
    simp only [Except.ok.injEq] at h
    rw [← h, map_filter_eq_flatMap]

theorem specEntries_ok (ind : ℕ) (v : Var) (off : ℕ) (pts : List Pt) (s : BCSpec Pt R)
    (y : List (ℕ × R)) (h : specEntries ind v off pts s = .ok y) : y = specE ind v off pts s := by
  unfold specEntries at h
  cases hc : forCollect (componentEntries s v.vec off pts) (specComponents s ind v.vec) with
  | error e => rw [hc] at h; cases h
  | ok ls =>
    rw [hc] at h
    simp only [Except.ok.injEq] at h
    rw [← h, forCollect_ok _ (compE s v.vec off pts) _ _ hc
      (fun x _ y hy => componentEntries_ok s v.vec off pts x y hy)]
    rfl

theorem collectEntries_ok (vars : List Var) (pts : List (List Pt)) (specs : List (BCSpec Pt R))
    (es : List (ℕ × R)) (h : collectEntries vars pts specs = .ok es) : es = allE vars pts specs := by
  unfold collectEntries at h
  split at h
  · cases h
  · rename_i ls hc
    simp only [Except.ok.injEq] at h
    rw [← h, forCollect_ok _ (fun q => specs.flatMap (specE q.2 q.1.1.1 q.1.1.2 q.1.2)) _ _ hc ?_]
    · rfl
    · intro q _ y hy
      split at hy
      · cases hy
      · rename_i ls' hc'
        simp only [Except.ok.injEq] at hy
        rw [← hy, forCollect_ok _ (specE q.2 q.1.1.1 q.1.1.2 q.1.2) _ _ hc'
          (fun s _ y hy => specEntries_ok _ _ _ _ s y hy)]
        rfl

theorem zipIdx_flatMap_single {α β : Type*} (l : List α) (F : α × ℕ → List β) (i st : ℕ)
    (hF : ∀ q ∈ l.zipIdx st, q.2 ≠ st + i → F q = []) :
    (l.zipIdx st).flatMap F = match l[i]? with
      | some x => F (x, st + i)
      | none => [] := by
  induction l generalizing i st with
  | nil => simp
  | cons x xs ih =>
    rw [List.zipIdx_cons, List.flatMap_cons]
    cases i with
    | zero =>
      simp only [List.getElem?_cons_zero, Nat.add_zero]
      have : (xs.zipIdx (st + 1)).flatMap F = [] := by
        rw [List.flatMap_eq_nil_iff]
        intro q hq
        apply hF q (by rw [List.zipIdx_cons]; exact List.mem_cons_of_mem _ hq)
        have := (List.mem_zipIdx hq).1
        omega
      rw [this, List.append_nil]
    | succ i =>
      rw [hF (x, st) (by rw [List.zipIdx_cons]; simp) (by simp), List.nil_append,
        ih i (st + 1) (by
          intro q hq hne
          apply hF q (by rw [List.zipIdx_cons]; exact List.mem_cons_of_mem _ hq)
          omega)]
      rw [List.getElem?_cons_succ, show st + 1 + i = st + (i + 1) by omega]

theorem flatMap_single {α β : Type*} [DecidableEq α] (l : List α) (hn : l.Nodup) (a : α)
    (F : α → List β) (hF : ∀ x ∈ l, x ≠ a → F x = []) :
    l.flatMap F = if a ∈ l then F a else [] := by
  induction l with
  | nil => simp
  | cons x xs ih =>
    rw [List.nodup_cons] at hn
    rw [List.flatMap_cons, ih hn.2 (fun y hy => hF y (by simp [hy]))]
    by_cases h : x = a
    · subst h; simp [hn.1]
    · rw [hF x (by simp) h]
      have h' : ¬ a = x := fun e => h e.symm
      simp [h']

theorem specComponents_nodup (s : BCSpec Pt R) (ind vec : ℕ) : (specComponents s ind vec).Nodup := by
  unfold specComponents
  split
  · split
    · simp
    · split
      · exact List.nodup_range
      · split <;> simp
  · split
    · exact List.nodup_range
    · split <;> simp

theorem mem_specComponents (s : BCSpec Pt R) (ind vec comp : ℕ) :
    comp ∈ specComponents s ind vec ↔ comp < vec ∧
      (s.variableIndex == none || s.variableIndex == some (ind : ℤ)) = true ∧
      (s.component == .all || s.component == .idx comp) = true := by
  unfold specComponents
  cases hv : s.variableIndex with
  | none =>
    cases hc : s.component with
    | all => simp
    | idx c =>
      simp only
      split_ifs with h
      · simp; omega
      · simp; omega
  | some z =>
    simp only
    split_ifs with h
    · simp [h]
    · have hz : z = (ind : ℤ) := by simpa using h
      cases hc : s.component with
      | all => simp [hz]
      | idx c =>
        simp only
        split_ifs with h
        · simp; omega
        · simp [hz]; omega

theorem zip3_getElem? (vars : List Var) (pts : List (List Pt)) (hp : pts.length = vars.length)
    (i : ℕ) (hi : i < vars.length) :
    ((vars.zip (offsets vars)).zip pts)[i]?
      = some ((vars.getD i ⟨0, 0, 0, []⟩, (offsets vars).getD i 0), pts.getD i []) := by
  have hol : (offsets vars).length = vars.length := by
    have aux : ∀ (vs : List Var) (acc : ℕ), (offsetsFrom acc vs).length = vs.length := by
      intro vs
      induction vs with
      | nil => intro _; rfl
      | cons v vs ih => intro acc; simp [offsetsFrom, ih]
    exact aux vars 0
  have h1 : i < (offsets vars).length := by omega
  have h2 : i < pts.length := by omega
  simp [List.getD_eq_getElem?_getD, hi, h1, h2]

/-- Entries for one DOF: one per selecting specification, in order. -/
theorem filter_allE (vars : List Var) (pts : List (List Pt)) (specs : List (BCSpec Pt R))
    (hp : pts.length = vars.length)
    (hpn : ∀ i < vars.length, (pts.getD i []).length = (vars.getD i ⟨0, 0, 0, []⟩).numNodes)
    {i node comp : ℕ} (hv : Props.ValidTriple vars i node comp) (pt : Pt)
    (hpt : (pts.getD i [])[node]? = some pt) :
    (allE vars pts specs).filter (fun e => e.1 == Spec.dofNumber (fields vars) i node comp)
      = (specs.filter (fun s => Spec.selects s i node comp pt)).map
          (fun s => (Spec.dofNumber (fields vars) i node comp, s.value pt)) := by
  obtain ⟨hi, hn, hc⟩ := hv
  have hd := Props.dofNumber_eq_offset vars (node := node) (comp := comp) hi
  unfold allE
  rw [List.filter_flatMap]
  have hzero : ∀ q ∈ ((vars.zip (offsets vars)).zip pts).zipIdx 0, q.2 ≠ 0 + i →
      List.filter (fun e : ℕ × R => e.1 == Spec.dofNumber (fields vars) i node comp)
        (specs.flatMap (specE q.2 q.1.1.1 q.1.1.2 q.1.2)) = [] := by
    intro q hq hne
    rw [List.filter_eq_nil_iff]
    intro e he
    obtain ⟨_, hlt, hqe⟩ := List.mem_zipIdx hq
    have hlt' : q.2 < vars.length := by
      have : q.2 < ((vars.zip (offsets vars)).zip pts).length := by omega
      simp only [List.length_zip] at this
      omega
    have hget := zip3_getElem? vars pts hp q.2 hlt'
    have hq1 : q.1 = ((vars.getD q.2 ⟨0, 0, 0, []⟩, (offsets vars).getD q.2 0), pts.getD q.2 []) := by
      have : ((vars.zip (offsets vars)).zip pts)[q.2]? = some q.1 := by
        rw [hqe]; exact List.getElem?_eq_getElem (by omega)
      rw [this] at hget
      exact Option.some.inj hget
    simp only [List.mem_flatMap] at he
    obtain ⟨s, hs, he⟩ := he
    simp only [specE, List.mem_flatMap, compE] at he
    obtain ⟨cmp, hcmp, r, hr, he⟩ := he
    have hcl := ((mem_specComponents s _ _ _).mp hcmp).1
    obtain ⟨_, hrl, hre⟩ := List.mem_zipIdx hr
    split_ifs at he with hloc
    · simp only [List.mem_singleton] at he
      subst he
      simp only [beq_iff_eq]
      intro heq
      rw [hq1] at hcl hrl heq
      simp only at hcl hrl heq
      have hv1 : Props.ValidTriple vars q.2 r.2 cmp :=
        ⟨hlt', by rw [← hpn q.2 hlt']; omega, hcl⟩
      have := Props.dof_inj vars hv1 ⟨hi, hn, hc⟩ (by
        rw [Props.dofNumber_eq_offset vars hlt', ← heq]; ring)
      omega
    · simp at he
  have := zipIdx_flatMap_single ((vars.zip (offsets vars)).zip pts)
    (fun q => List.filter (fun e : ℕ × R => e.1 == Spec.dofNumber (fields vars) i node comp)
        (specs.flatMap (specE q.2 q.1.1.1 q.1.1.2 q.1.2))) i 0 hzero
  rw [this, zip3_getElem? vars pts hp i hi]
  simp only [Nat.zero_add]
  rw [List.filter_flatMap, map_filter_eq_flatMap]
  apply List.flatMap_congr
  intro s hs
  unfold specE
  rw [List.filter_flatMap]
  set v := vars.getD i ⟨0, 0, 0, []⟩ with hvdef
  set off := (offsets vars).getD i 0 with hoff
  have hcomp : ∀ cmp, cmp < v.vec →
      (compE s v.vec off (pts.getD i []) cmp).filter
        (fun e => e.1 == Spec.dofNumber (fields vars) i node comp)
      = if cmp = comp ∧ Spec.located s.location pt node = true
        then [(Spec.dofNumber (fields vars) i node comp, s.value pt)] else [] := by
    intro cmp hcmp
    unfold compE
    rw [List.filter_flatMap]
    have hz : ∀ q ∈ (pts.getD i []).zipIdx 0, q.2 ≠ 0 + node →
        List.filter (fun e : ℕ × R => e.1 == Spec.dofNumber (fields vars) i node comp)
          (if Spec.located s.location q.1 q.2 = true
            then [(q.2 * v.vec + cmp + off, s.value q.1)] else []) = [] := by
      intro q hq hne
      split_ifs
      · rw [List.filter_eq_nil_iff]
        intro e he
        simp only [List.mem_singleton] at he
        subst he
        simp only [beq_iff_eq]
        rw [hd]
        intro heq
        have : q.2 * v.vec + cmp = node * v.vec + comp := by
          rw [Nat.mul_comm v.vec node] at heq; omega
        have := key_inj hc hcmp this
        omega
      · rfl
    have := zipIdx_flatMap_single (pts.getD i []) (fun q =>
      List.filter (fun e : ℕ × R => e.1 == Spec.dofNumber (fields vars) i node comp)
          (if Spec.located s.location q.1 q.2 = true
            then [(q.2 * v.vec + cmp + off, s.value q.1)] else [])) node 0 hz
    rw [this, hpt]
    simp only [Nat.zero_add]
    by_cases hl : Spec.located s.location pt node = true
    · by_cases hcc : cmp = comp
      · subst hcc
        have e : node * v.vec + cmp + off = Spec.dofNumber (fields vars) i node cmp := by
          rw [hd]; ring
        rw [e]
        simp [hl]
      · have hne : ¬ (node * v.vec + cmp + off = Spec.dofNumber (fields vars) i node comp) := by
          rw [hd, Nat.mul_comm v.vec node]; omega
        simp [hl, hcc, hne]
    · simp [hl]
  rw [flatMap_single _ (specComponents_nodup s i v.vec) comp _ (by
    intro cmp hcmp hne
    rw [hcomp cmp ((mem_specComponents s _ _ _).mp hcmp).1, if_neg (by tauto)])]
  rw [hcomp comp hc]
  simp only [true_and]
  unfold Spec.selects
  have hm := mem_specComponents s i v.vec comp
  by_cases h1 : comp ∈ specComponents s i v.vec
  · have := hm.mp h1
    rw [if_pos h1, this.2.1, this.2.2]
    simp
  · rw [if_neg h1]
    have : ¬ ((s.variableIndex == none || s.variableIndex == some (i : ℤ)) = true ∧
      (s.component == .all || s.component == .idx comp) = true) := fun hh => h1 (hm.mpr ⟨hc, hh⟩)
    rw [if_neg]
    intro hh
    simp only [Bool.and_eq_true] at hh
    exact this ⟨hh.1.1, hh.1.2⟩

/-- Every entry belongs to a valid DOF. -/
theorem mem_allE (vars : List Var) (pts : List (List Pt)) (specs : List (BCSpec Pt R))
    (hp : pts.length = vars.length)
    (hpn : ∀ i < vars.length, (pts.getD i []).length = (vars.getD i ⟨0, 0, 0, []⟩).numNodes)
    (e : ℕ × R) (he : e ∈ allE vars pts specs) :
    ∃ i node comp, Props.ValidTriple vars i node comp ∧
      e.1 = Spec.dofNumber (fields vars) i node comp := by
  simp only [allE, List.mem_flatMap, specE, compE] at he
  obtain ⟨q, hq, s, hs, cmp, hcmp, r, hr, he⟩ := he
  obtain ⟨_, hlt, hqe⟩ := List.mem_zipIdx hq
  have hlt' : q.2 < vars.length := by
    have : q.2 < ((vars.zip (offsets vars)).zip pts).length := by omega
    simp only [List.length_zip] at this
    omega
  have hget := zip3_getElem? vars pts hp q.2 hlt'
  have hq1 : q.1 = ((vars.getD q.2 ⟨0, 0, 0, []⟩, (offsets vars).getD q.2 0), pts.getD q.2 []) := by
    have : ((vars.zip (offsets vars)).zip pts)[q.2]? = some q.1 := by
      rw [hqe]; exact List.getElem?_eq_getElem (by omega)
    rw [this] at hget
    exact Option.some.inj hget
  have hcl := ((mem_specComponents s _ _ _).mp hcmp).1
  obtain ⟨_, hrl, hre⟩ := List.mem_zipIdx hr
  split_ifs at he with hloc
  · simp only [List.mem_singleton] at he
    subst he
    rw [hq1] at hcl hrl ⊢
    simp only at hcl hrl ⊢
    refine ⟨q.2, r.2, cmp, ⟨hlt', by rw [← hpn q.2 hlt']; omega, hcl⟩, ?_⟩
    rw [Props.dofNumber_eq_offset vars hlt']; ring
  · simp at he

end entries

end Verif.Model
