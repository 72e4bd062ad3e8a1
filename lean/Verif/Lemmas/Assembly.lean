import Verif.Model.Assembly
import Verif.Lemmas.CsrBuild
import Mathlib.Algebra.BigOperators.Group.List.Basic

/-! # Facts about batching and assembly (proof machinery) -/

namespace Verif.Model

/-! ## Reshape and batching -/

theorem reshapeRows_succ {α : Type*} (rows cols : ℕ) (xs : List α) :
    reshapeRows (rows + 1) cols xs = xs.take cols :: reshapeRows rows cols (xs.drop cols) := by
  unfold reshapeRows
  rw [List.range_succ_eq_map, List.map_cons, List.map_map]
  simp only [Nat.zero_mul, List.drop_zero, List.cons.injEq, true_and]
  apply List.map_congr_left
  intro i _
  simp only [Function.comp, List.drop_drop]
  congr 2
  rw [Nat.succ_mul, Nat.add_comm]

@[simp] theorem reshapeRows_length {α : Type*} (rows cols : ℕ) (xs : List α) :
    (reshapeRows rows cols xs).length = rows := by simp [reshapeRows]

theorem reshapeRows_flatten {α : Type*} (rows cols : ℕ) (xs : List α)
    (h : xs.length = rows * cols) : (reshapeRows rows cols xs).flatten = xs := by
  induction rows generalizing xs with
  | zero =>
    have : xs = [] := by simpa using h
    subst this; rfl
  | succ rows ih =>
    rw [reshapeRows_succ, List.flatten_cons, ih, List.take_append_drop]
    rw [List.length_drop, h, Nat.succ_mul]; omega

theorem reshapeRows_of_flatten {α : Type*} (cols : ℕ) (xss : List (List α))
    (h : ∀ xs ∈ xss, xs.length = cols) : reshapeRows xss.length cols xss.flatten = xss := by
  induction xss with
  | nil => rfl
  | cons xs xss ih =>
    have hx := h xs (by simp)
    rw [List.length_cons, reshapeRows_succ, List.flatten_cons]
    rw [List.take_append_of_le_length (by omega), List.take_of_length_le (by omega),
      List.drop_append_of_le_length (by omega), List.drop_of_length_le (by omega),
      List.nil_append, ih (fun y hy => h y (by simp [hy]))]

theorem reshapeRows_mem_length {α : Type*} (rows cols : ℕ) (xs : List α)
    (h : xs.length = rows * cols) : ∀ r ∈ reshapeRows rows cols xs, r.length = cols := by
  induction rows generalizing xs with
  | zero => intro r hr; simp [reshapeRows] at hr
  | succ rows ih =>
    intro r hr
    rw [reshapeRows_succ, List.mem_cons] at hr
    rcases hr with rfl | hr
    · rw [List.length_take, h, Nat.succ_mul]; omega
    · exact ih (xs.drop cols) (by rw [List.length_drop, h, Nat.succ_mul]; omega) r hr

theorem reshapeRows_map {α β : Type*} (f : α → β) (rows cols : ℕ) (xs : List α) :
    reshapeRows rows cols (xs.map f) = (reshapeRows rows cols xs).map (fun r => r.map f) := by
  simp [reshapeRows, List.map_map, Function.comp_def]

theorem batching_spec {n batch : ℕ} (hn : n ≠ 0) (hb : 0 < batch) :
    0 < (batching n batch).1 ∧ (batching n batch).2.2 = (batching n batch).2.1 * (batching n batch).1
    ∧ n ≤ (batching n batch).2.2 := by
  unfold batching
  rw [if_neg hn]
  refine ⟨by simp; omega, rfl, ?_⟩
  have hbs : 0 < min batch n := by omega
  show n ≤ (n + min batch n - 1) / min batch n * min batch n
  generalize min batch n = b at *
  have h1 := Nat.div_add_mod (n + b - 1) b
  have h2 := Nat.mod_lt (n + b - 1) hbs
  rw [Nat.mul_comm] at h1
  omega

theorem batching_zero (batch : ℕ) : batching 0 batch = (0, 0, 0) := rfl

/-- Scanning in fixed-size padded batches gives exactly the un-batched result. -/
theorem scanVmapBatched_eq {α β : Type*} (f : α → β) (z : α) (items : List α) {batch : ℕ}
    (hb : 0 < batch) : scanVmapBatched f z items batch = items.map f := by
  unfold scanVmapBatched
  simp only
  split_ifs with h
  · rfl
  · have hn : items.length ≠ 0 := by
      intro e; rw [e, batching_zero] at h; simp at h
    obtain ⟨h1, h2, h3⟩ := batching_spec hn hb
    generalize batching items.length batch = b at *
    rw [← reshapeRows_map, reshapeRows_flatten]
    · simp [padAxis0]
    · simp [padAxis0]; omega

section
variable {R : Type*} [AddCommMonoid R]

@[simp] theorem vadd_length (a b : List R) : (vadd a b).length = min a.length b.length := by
  simp [vadd]

theorem vadd_getD (a b : List R) (h : a.length = b.length) (s : ℕ) :
    (vadd a b).getD s 0 = a.getD s 0 + b.getD s 0 := by
  unfold vadd
  by_cases hs : s < a.length
  · have hs' : s < b.length := by omega
    simp [List.getD_eq_getElem?_getD, hs, hs']
  · have hs' : ¬ s < b.length := by omega
    have e1 : a[s]? = none := by simpa using hs
    have e2 : b[s]? = none := by simpa using hs'
    simp [List.getD_eq_getElem?_getD, e1, e2, List.getElem?_zipWith]

theorem getD_replicate_zero (num s : ℕ) : (List.replicate num (0 : R)).getD s 0 = 0 := by
  by_cases hs : s < num <;> simp [List.getD_eq_getElem?_getD, hs]

/-- Folding `carry + segment_sum` over batches adds the batches' contributions. -/
theorem foldl_segsum {γ : Type*} (num : ℕ) (g : γ → List R) (hg : ∀ b, (g b).length = num)
    (bs : List γ) (c : List R) (hc : c.length = num) (s : ℕ) :
    (bs.foldl (fun carry b => vadd carry (g b)) c).length = num ∧
    (bs.foldl (fun carry b => vadd carry (g b)) c).getD s 0
      = c.getD s 0 + (bs.map (fun b => (g b).getD s 0)).sum := by
  induction bs generalizing c with
  | nil => simp [hc]
  | cons b bs ih =>
    have hl : (vadd c (g b)).length = num := by simp [hc, hg]
    obtain ⟨h1, h2⟩ := ih (vadd c (g b)) hl
    refine ⟨h1, ?_⟩
    rw [List.foldl_cons, h2, vadd_getD _ _ (by rw [hc, hg])]
    simp [add_assoc]

theorem flatten_length_uniform {α : Type*} (w : ℕ) (xss : List (List α))
    (h : ∀ xs ∈ xss, xs.length = w) : xss.flatten.length = xss.length * w := by
  induction xss with
  | nil => simp
  | cons x xs ih =>
    rw [List.flatten_cons, List.length_append, ih (fun y hy => h y (by simp [hy])), h x (by simp),
      List.length_cons, Nat.succ_mul, Nat.add_comm]

theorem map_zip_swap {α β γ : Type*} (f : α × β → γ) (as : List α) (bs : List β) :
    (as.zip bs).map f = (bs.zip as).map (fun q => f (q.2, q.1)) := by
  induction as generalizing bs with
  | nil => simp
  | cons a as ih => cases bs <;> simp [ih]

/-- Zipping two equally-chunked lists chunk by chunk. -/
theorem zip_flatten {α β : Type*} (ass : List (List α)) (bss : List (List β))
    (h : List.Forall₂ (fun a b => a.length = b.length) ass bss) :
    ass.flatten.zip bss.flatten = ((ass.zip bss).map (fun p => p.1.zip p.2)).flatten := by
  induction h with
  | nil => rfl
  | cons hab h ih => simp [List.zip_append hab, ih]

theorem forall₂_length_of_uniform {α β : Type*} (w : ℕ) {ass : List (List α)} {bss : List (List β)}
    (hl : ass.length = bss.length) (ha : ∀ a ∈ ass, a.length = w) (hb : ∀ b ∈ bss, b.length = w) :
    List.Forall₂ (fun a b => a.length = b.length) ass bss := by
  induction ass generalizing bss with
  | nil => cases bss <;> simp_all
  | cons a as ih =>
    cases bss with
    | nil => simp at hl
    | cons b bs =>
      refine List.Forall₂.cons ?_ (ih (by simpa using hl) (fun x hx => ha x (by simp [hx]))
        (fun x hx => hb x (by simp [hx])))
      rw [ha a (by simp), hb b (by simp)]

/-- The batched, padded, slot-sorted scan computes the plain scatter-add. -/
theorem volScan_slotSort {α : Type*} (vals : α → List R) (z : α) (items : List α)
    (ids : List (List ℕ)) (w discard num : ℕ) {batch : ℕ} (hb : 0 < batch)
    (hlen : items.length = ids.length) (hids : ∀ r ∈ ids, r.length = w)
    (hvals : ∀ a, (vals a).length = w) {s : ℕ} (hs : s < num) (hsd : s ≠ discard) :
    (volScan vals z items (slotSort ids w discard batch) num batch).getD s 0
      = segSumAt (ids.flatten.zip (items.map vals).flatten) s := by
  unfold volScan slotSort
  rw [hlen]
  by_cases h : (batching ids.length batch).2.1 ≤ 1
  · simp only [h, if_true, List.headD_cons]
    have hl : ids.flatten.length = (items.map vals).flatten.length := by
      rw [flatten_length_uniform w _ hids, flatten_length_uniform w]
      · simp [hlen]
      · intro xs hx; simp only [List.mem_map] at hx; obtain ⟨a, _, rfl⟩ := hx; exact hvals a
    rw [vadd_getD _ _ (by simp), getD_replicate_zero, zero_add,
      segmentSum_gather _ _ _ hl.symm (argsort_perm _), segmentSum_getD _ _ _ _ hs]
  · simp only [h, if_false]
    have hn : ids.length ≠ 0 := by
      intro e; rw [e, batching_zero] at h; simp at h
    obtain ⟨h1, h2, h3⟩ := batching_spec hn hb
    generalize batching ids.length batch = b at *
    obtain ⟨bs, cuts, npad⟩ := b
    simp only at *
    set pi := padAxis0 items (npad - ids.length) z with hpi
    set pd := padAxis0 ids (npad - ids.length) (List.replicate w discard) with hpd
    have lpi : pi.length = cuts * bs := by simp [hpi, padAxis0]; omega
    have lpd : pd.length = cuts * bs := by simp [hpd, padAxis0]; omega
    have wpd : ∀ r ∈ pd, r.length = w := by
      intro r hr
      simp only [hpd, padAxis0, List.mem_append] at hr
      rcases hr with hr | hr
      · exact hids r hr
      · rw [List.eq_of_mem_replicate hr]; simp
    rw [(foldl_segsum num (fun bx : List α × List ℕ × List ℕ =>
      segmentSum (gather 0 (bx.1.map vals).flatten bx.2.1) bx.2.2 num) (by simp) _ _ (by simp) s).2]
    rw [getD_replicate_zero, zero_add]
    -- turn the zip with the mapped sorts into a zip of raw rows
    rw [List.zip_map_right, List.map_map]
    have step : ∀ bx ∈ (reshapeRows cuts bs pi).zip (reshapeRows cuts bs pd),
        ((fun b : List α × List ℕ × List ℕ =>
          (segmentSum (gather 0 (b.1.map vals).flatten b.2.1) b.2.2 num).getD s 0) ∘
          Prod.map id (fun rows : List (List ℕ) =>
            (argsort rows.flatten, gather 0 rows.flatten (argsort rows.flatten)))) bx
        = segSumAt (bx.2.flatten.zip (bx.1.map vals).flatten) s := by
      intro bx hbx
      have m1 := (List.of_mem_zip hbx).1
      have m2 := (List.of_mem_zip hbx).2
      have l1 := reshapeRows_mem_length cuts bs pi lpi _ m1
      have l2 := reshapeRows_mem_length cuts bs pd lpd _ m2
      have wb : ∀ r ∈ bx.2, r.length = w := by
        intro r hr
        apply wpd
        rw [← reshapeRows_flatten cuts bs pd lpd]
        exact List.mem_flatten.mpr ⟨_, m2, hr⟩
      have hl : (bx.1.map vals).flatten.length = bx.2.flatten.length := by
        rw [flatten_length_uniform w _ wb, flatten_length_uniform w]
        · simp [l1, l2]
        · intro xs hx; simp only [List.mem_map] at hx; obtain ⟨a, _, rfl⟩ := hx; exact hvals a
      simp only [Function.comp, Prod.map, id]
      rw [segmentSum_gather _ _ _ hl (argsort_perm _), segmentSum_getD _ _ _ _ hs]
    rw [List.map_congr_left step]
    -- recombine the batches
    have e1 : pd.flatten.zip (pi.map vals).flatten
        = (((reshapeRows cuts bs pi).zip (reshapeRows cuts bs pd)).map
            (fun bx => bx.2.flatten.zip (bx.1.map vals).flatten)).flatten := by
      have c1 : pd.flatten = ((reshapeRows cuts bs pd).map List.flatten).flatten := by
        conv_lhs => rw [← reshapeRows_flatten cuts bs pd lpd]
        rw [List.flatten_flatten]
      have c2 : (pi.map vals).flatten
          = ((reshapeRows cuts bs pi).map (fun r => (r.map vals).flatten)).flatten := by
        conv_lhs => rw [← reshapeRows_flatten cuts bs pi lpi]
        rw [List.map_flatten, List.flatten_flatten, List.map_map]; rfl
      rw [c1, c2, zip_flatten]
      · rw [List.zip_map, List.map_map, map_zip_swap]; rfl
      · apply forall₂_length_of_uniform (bs * w)
        · simp
        · intro a ha
          simp only [List.mem_map] at ha
          obtain ⟨r, hr, rfl⟩ := ha
          rw [flatten_length_uniform w, reshapeRows_mem_length cuts bs pd lpd _ hr]
          intro x hx
          apply wpd
          rw [← reshapeRows_flatten cuts bs pd lpd]
          exact List.mem_flatten.mpr ⟨_, hr, hx⟩
        · intro a ha
          simp only [List.mem_map] at ha
          obtain ⟨r, hr, rfl⟩ := ha
          rw [flatten_length_uniform w]
          · simp [reshapeRows_mem_length cuts bs pi lpi _ hr]
          · intro xs hx; simp only [List.mem_map] at hx; obtain ⟨a, _, rfl⟩ := hx; exact hvals a
    have e2 := segSumAt_flatten (((reshapeRows cuts bs pi).zip (reshapeRows cuts bs pd)).map
            (fun bx => bx.2.flatten.zip (bx.1.map vals).flatten)) s
    rw [List.map_map] at e2
    have e3 : (List.map (fun bx : List α × List (List ℕ) =>
          segSumAt (bx.2.flatten.zip (bx.1.map vals).flatten) s)
        ((reshapeRows cuts bs pi).zip (reshapeRows cuts bs pd))).sum
        = segSumAt (pd.flatten.zip (pi.map vals).flatten) s := by
      rw [e1, e2]; rfl
    rw [e3]
    -- drop the padding
    simp only [hpd, hpi, padAxis0, List.flatten_append, List.map_append]
    rw [List.zip_append, segSumAt_append]
    · rw [segSumAt_eq_zero (ps := List.zip (List.replicate _ _).flatten _), add_zero]
      rintro ⟨a, x⟩ hp
      have hm := (List.of_mem_zip hp).1
      rw [List.mem_flatten] at hm
      obtain ⟨l, hl, ha⟩ := hm
      rw [List.eq_of_mem_replicate hl] at ha
      simp only
      rw [List.eq_of_mem_replicate ha]
      exact hsd.symm
    · rw [flatten_length_uniform w _ hids, flatten_length_uniform w]
      · simp [hlen]
      · intro xs hx; simp only [List.mem_map] at hx; obtain ⟨a, _, rfl⟩ := hx; exact hvals a

theorem volScan_length {α : Type*} (vals : α → List R) (z : α) (items : List α)
    (sorts : List (List ℕ × List ℕ)) (num batch : ℕ) :
    (volScan vals z items sorts num batch).length = num := by
  unfold volScan
  simp only
  split_ifs
  · simp
  · exact (foldl_segsum num (fun bx : List α × List ℕ × List ℕ =>
      segmentSum (gather 0 (bx.1.map vals).flatten bx.2.1) bx.2.2 num) (by simp) _ _ (by simp) 0).1

end

end Verif.Model
