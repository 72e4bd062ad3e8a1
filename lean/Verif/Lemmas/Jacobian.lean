import Verif.Lemmas.Dense

/-! # The assembled Jacobian and residual of a problem (proof machinery) -/

namespace Verif.Model

/-- Well-formed problem: every variable has one row of valid nodes per cell, and boundary faces
belong to existing cells. -/
structure Problem.WF (p : Problem) : Prop where
  vars : ∀ v ∈ p.vars, v.WF p.numCells
  faces : ∀ fc ∈ p.faceCells, ∀ c ∈ fc, c < p.numCells

/-- Keys of all raw entries. -/
def Problem.keysAll (p : Problem) : List ℕ := coordKeys p.n p.I p.J

/-- Keys of the kept raw entries. -/
def Problem.keysF (p : Problem) : List ℕ :=
  coordKeys p.n (gather 0 p.I p.filterIndices) (gather 0 p.J p.filterIndices)

/-- Sorted unique kept keys. -/
def Problem.u (p : Problem) : List ℕ :=
  ukeys p.n (gather 0 p.I p.filterIndices) (gather 0 p.J p.filterIndices)

theorem Problem.u_sorted (p : Problem) : p.u.Pairwise (· < ·) := ukeys_sorted _ _ _

theorem Problem.u_nodup (p : Problem) : p.u.Nodup := nodup_of_sorted p.u_sorted

theorem Problem.maps_nse (p : Problem) : p.maps.nse = p.u.length := build_nse _ _ _ _ _

theorem Problem.maps_indptr (p : Problem) : p.maps.indptr = ptrOfRows p.n (p.u.map (· / p.n)) :=
  build_indptr _ _ _ _ _

theorem Problem.maps_indices (p : Problem) : p.maps.indices = p.u.map (· % p.n) :=
  build_indices _ _ _ _ _

theorem Problem.maps_rowOfSlot (p : Problem) : p.maps.rowOfSlot = p.u.map (· / p.n) :=
  build_rowOfSlot _ _ _ _ _

theorem Problem.maps_perm (p : Problem) : p.maps.perm = argsort p.keysF := build_perm _ _ _ _ _

theorem Problem.maps_segIds (p : Problem) :
    p.maps.segIds = segIdsOf (gather 0 p.keysF (argsort p.keysF)) := build_segIds _ _ _ _ _

theorem Problem.maps_fullSlot (p : Problem) :
    p.maps.fullSlot = p.keysAll.map (fullSlotOf p.u p.u.length) := build_fullSlot _ _ _ _ _

theorem Problem.u_eq (p : Problem) : p.u = uniq (gather 0 p.keysF (argsort p.keysF)) := rfl

theorem Problem.I_length (p : Problem) : p.I.length = p.J.length := by
  simp [Problem.I, Problem.J, rowsOfInds_length]

theorem Problem.keysAll_length (p : Problem) : p.keysAll.length = p.I.length := by
  simp [Problem.keysAll, coordKeys, ← p.I_length]

theorem Problem.keysAll_getD (p : Problem) (t : ℕ) (ht : t < p.I.length) :
    p.keysAll.getD t 0 = p.I.getD t 0 * p.n + p.J.getD t 0 := by
  have ht2 : t < p.J.length := by rw [← p.I_length]; exact ht
  simp [Problem.keysAll, coordKeys, List.getD_eq_getElem?_getD, ht, ht2]

theorem Problem.mem_filterIndices (p : Problem) (t : ℕ) :
    t ∈ p.filterIndices ↔ t < p.I.length ∧ p.view.keep (p.I.getD t 0) (p.J.getD t 0) = true := by
  simp [Problem.filterIndices]

theorem Problem.keysF_eq (p : Problem) : p.keysF = gather 0 p.keysAll p.filterIndices := by
  unfold Problem.keysF coordKeys gather
  rw [List.zipWith_map, List.zipWith_self]
  apply List.map_congr_left
  intro t ht
  rw [p.keysAll_getD t ((p.mem_filterIndices t).mp ht).1]

theorem Problem.mem_u (p : Problem) (k : ℕ) :
    k ∈ p.u ↔ ∃ t < p.I.length, p.view.keep (p.I.getD t 0) (p.J.getD t 0) = true ∧
      p.I.getD t 0 * p.n + p.J.getD t 0 = k := by
  rw [p.u_eq, mem_uniq, (gather_argsort_perm _).mem_iff, p.keysF_eq]
  unfold gather
  rw [List.mem_map]
  constructor
  · rintro ⟨t, ht, rfl⟩
    have := (p.mem_filterIndices t).mp ht
    exact ⟨t, this.1, this.2, (p.keysAll_getD t this.1).symm⟩
  · rintro ⟨t, ht, hk, rfl⟩
    exact ⟨t, (p.mem_filterIndices t).mpr ⟨ht, hk⟩, p.keysAll_getD t ht⟩

theorem mem_rowsOfInds {inds : List (List ℕ)} {x : ℕ} (h : x ∈ rowsOfInds inds) :
    ∃ d ∈ inds, x ∈ d := by
  simp only [rowsOfInds, List.mem_flatten, List.mem_map] at h
  obtain ⟨l, ⟨d, hd, rfl⟩, hx⟩ := h
  simp only [List.mem_flatten, List.mem_map] at hx
  obtain ⟨l, ⟨r, hr, rfl⟩, hx⟩ := hx
  simp only [List.mem_map] at hx
  obtain ⟨_, _, rfl⟩ := hx
  exact ⟨d, hd, hr⟩

theorem mem_colsOfInds {inds : List (List ℕ)} {x : ℕ} (h : x ∈ colsOfInds inds) :
    ∃ d ∈ inds, x ∈ d := by
  simp only [colsOfInds, List.mem_flatten, List.mem_map] at h
  obtain ⟨l, ⟨d, hd, rfl⟩, hx⟩ := h
  simp only [List.mem_flatten, List.mem_map] at hx
  obtain ⟨l, ⟨r, hr, rfl⟩, hx⟩ := hx
  exact ⟨d, hd, hx⟩

theorem Problem.WF.volInds_lt {p : Problem} (h : p.WF) : ∀ d ∈ p.volInds, ∀ x ∈ d, x < p.n := by
  intro d hd x hx
  simp only [Problem.volInds, buildInds, List.mem_map, List.mem_range] at hd
  obtain ⟨c, hc, rfl⟩ := hd
  exact mem_cellDofs_lt p.vars p.numCells c h.vars hc x hx

theorem Problem.mem_faceInds {p : Problem} {d : List ℕ} (hd : d ∈ p.faceInds) :
    ∃ fc ∈ p.faceCells, ∃ c ∈ fc, d = cellDofs p.vars c := by
  simp only [Problem.faceInds, List.mem_flatten, List.mem_map, buildFaceInds] at hd
  obtain ⟨l, ⟨fc, hfc, rfl⟩, hd⟩ := hd
  simp only [List.mem_map] at hd
  obtain ⟨c, hc, rfl⟩ := hd
  exact ⟨fc, hfc, c, hc, rfl⟩

theorem Problem.WF.faceInds_lt {p : Problem} (h : p.WF) : ∀ d ∈ p.faceInds, ∀ x ∈ d, x < p.n := by
  intro d hd x hx
  obtain ⟨fc, hfc, c, hc, rfl⟩ := Problem.mem_faceInds hd
  exact mem_cellDofs_lt p.vars p.numCells c h.vars (h.faces fc hfc c hc) x hx

theorem Problem.WF.volInds_length {p : Problem} (h : p.WF) :
    ∀ d ∈ p.volInds, d.length = p.ndof := by
  intro d hd
  simp only [Problem.volInds, buildInds, List.mem_map, List.mem_range] at hd
  obtain ⟨c, hc, rfl⟩ := hd
  exact cellDofs_length p.vars p.numCells c h.vars hc

theorem Problem.WF.faceInds_length {p : Problem} (h : p.WF) :
    ∀ d ∈ p.faceInds, d.length = p.ndof := by
  intro d hd
  obtain ⟨fc, hfc, c, hc, rfl⟩ := Problem.mem_faceInds hd
  exact cellDofs_length p.vars p.numCells c h.vars (h.faces fc hfc c hc)

theorem Problem.WF.I_lt {p : Problem} (h : p.WF) : ∀ x ∈ p.I, x < p.n := by
  intro x hx
  simp only [Problem.I, List.mem_append] at hx
  rcases hx with hx | hx
  · obtain ⟨d, hd, hx⟩ := mem_rowsOfInds hx; exact h.volInds_lt d hd x hx
  · obtain ⟨d, hd, hx⟩ := mem_rowsOfInds hx; exact h.faceInds_lt d hd x hx

theorem Problem.WF.J_lt {p : Problem} (h : p.WF) : ∀ x ∈ p.J, x < p.n := by
  intro x hx
  simp only [Problem.J, List.mem_append] at hx
  rcases hx with hx | hx
  · obtain ⟨d, hd, hx⟩ := mem_colsOfInds hx; exact h.volInds_lt d hd x hx
  · obtain ⟨d, hd, hx⟩ := mem_colsOfInds hx; exact h.faceInds_lt d hd x hx

theorem getD_mem_of_lt {l : List ℕ} {t : ℕ} (ht : t < l.length) : l.getD t 0 ∈ l := by
  rw [List.getD_eq_getElem _ _ ht]; exact List.getElem_mem ht

theorem Problem.WF.u_div_lt {p : Problem} (h : p.WF) : ∀ k ∈ p.u, k / p.n < p.n := by
  intro k hk
  obtain ⟨t, ht, _, rfl⟩ := (p.mem_u k).mp hk
  have ht2 : t < p.J.length := by rw [← p.I_length]; exact ht
  rw [key_div (h.J_lt _ (getD_mem_of_lt ht2))]
  exact h.I_lt _ (getD_mem_of_lt ht)

/-- A coordinate pair is stored iff it is kept by the view and occurs among the raw entries. -/
theorem Problem.WF.key_mem_u {p : Problem} (h : p.WF) {i j : ℕ} (hj : j < p.n) :
    i * p.n + j ∈ p.u ↔ p.view.keep i j = true ∧ i * p.n + j ∈ p.keysAll := by
  rw [p.mem_u]
  constructor
  · rintro ⟨t, ht, hk, e⟩
    have ht2 : t < p.J.length := by rw [← p.I_length]; exact ht
    obtain ⟨e1, e2⟩ := key_inj hj (h.J_lt _ (getD_mem_of_lt ht2)) e
    rw [e1, e2] at hk
    refine ⟨hk, ?_⟩
    rw [← e, ← p.keysAll_getD t ht]
    exact getD_mem_of_lt (by rw [p.keysAll_length]; exact ht)
  · rintro ⟨hk, hm⟩
    obtain ⟨t, ht, e⟩ := List.getElem_of_mem hm
    have ht1 : t < p.I.length := by rw [← p.keysAll_length]; exact ht
    have ht2 : t < p.J.length := by rw [← p.I_length]; exact ht1
    have e' : p.I.getD t 0 * p.n + p.J.getD t 0 = i * p.n + j := by
      rw [← p.keysAll_getD t ht1, List.getD_eq_getElem _ _ ht, e]
    obtain ⟨e1, e2⟩ := key_inj hj (h.J_lt _ (getD_mem_of_lt ht2)) e'
    exact ⟨t, ht1, by rw [e1, e2]; exact hk, e'⟩

theorem Problem.keysAll_eq (p : Problem) :
    p.keysAll = ((p.volInds ++ p.faceInds).map (elemKeys p.n)).flatten := by
  unfold Problem.keysAll Problem.I Problem.J coordKeys
  rw [List.zipWith_append (rowsOfInds_length _)]
  have h1 := coordKeys_inds p.n p.volInds
  have h2 := coordKeys_inds p.n p.faceInds
  unfold coordKeys at h1 h2
  rw [h1, h2, List.map_append, List.flatten_append]

set_option linter.unusedSectionVars false

section
variable {R : Type*} [AddCommMonoid R]

/-- Reduction by full slot is reduction by key. -/
theorem Problem.segSumAt_fullSlot (p : Problem) (V : List R) {s : ℕ} (hs : s < p.u.length) :
    segSumAt (p.maps.fullSlot.zip V) s = segSumAt (p.keysAll.zip V) (p.u.getD s 0) := by
  rw [p.maps_fullSlot]
  apply segSumAt_relabel' p.u_nodup V ?_ hs
  rw [List.forall₂_map_right_iff, List.forall₂_same]
  intro k _
  exact fullSlotOf_spec p.u_sorted k

theorem Problem.volInds_count (p : Problem) : p.volInds.length = p.numCells := by
  simp [Problem.volInds, buildInds]

theorem Problem.WF.fullSlot_length {p : Problem} (h : p.WF) :
    p.maps.fullSlot.length = (p.numCells + p.faceInds.length) * (p.ndof * p.ndof) := by
  rw [p.maps_fullSlot, List.length_map, p.keysAll_eq, flatten_length_uniform (p.ndof * p.ndof)]
  · simp [p.volInds_count]
  · intro xs hx
    simp only [List.mem_map, List.mem_append] at hx
    obtain ⟨d, hd, rfl⟩ := hx
    rw [elemKeys_length]
    rcases hd with hd | hd
    · rw [h.volInds_length d hd]
    · rw [h.faceInds_length d hd]

/-- Values of all raw entries, in volume-then-boundary order. -/
def valsAll {α β : Type*} (g : Local R → List R) (kv : α → Local R) (kf : ℕ → β → Local R)
    (cellsIn : List α) (facesIn : List (List β)) : List R :=
  (cellsIn.map (fun a => g (kv a))).flatten ++
    ((facesIn.zipIdx.map (fun q => (q.1.map (fun x => g (kf q.2 x))).flatten))).flatten

theorem computeFace_vals {β : Type*} (g : Local R → List R) (kf : ℕ → β → Local R) (zf : β)
    (facesIn : List (List β)) {batch : ℕ} (hb : 0 < batch) :
    ((computeFace kf zf facesIn batch).map (fun fs => (fs.map g).flatten)).flatten
      = (facesIn.zipIdx.map (fun q => (q.1.map (fun x => g (kf q.2 x))).flatten)).flatten := by
  unfold computeFace
  rw [List.map_map]
  congr 1
  apply List.map_congr_left
  intro q _
  simp only [Function.comp]
  rw [scanVmapBatched_eq _ _ _ hb, List.map_map]
  rfl

theorem getD_take_lt {α : Type*} (d : α) (l : List α) {s m : ℕ} (hs : s < m) :
    (l.take m).getD s d = l.getD s d := by
  simp [List.getD_eq_getElem?_getD, hs]

theorem list_eq_map_of_getD {α : Type*} (d : α) (u : List ℕ) (l : List α) (f : ℕ → α)
    (hl : l.length = u.length) (h : ∀ s < u.length, l.getD s d = f (u.getD s 0)) :
    l = u.map f := by
  apply List.ext_getElem
  · simp [hl]
  · intro s h1 h2
    have hs : s < u.length := by simpa using h2
    have := h s hs
    rw [List.getD_eq_getElem _ _ h1, List.getD_eq_getElem _ _ hs] at this
    simpa using this

theorem faceVals_length {β : Type*} (w : ℕ) (g : Local R → List R) (kf : ℕ → β → Local R)
    (facesIn : List (List β)) (faceCells : List (List ℕ))
    (hw : ∀ k x, (g (kf k x)).length = w)
    (hf : List.Forall₂ (fun (a : List β) (b : List ℕ) => a.length = b.length) facesIn faceCells)
    (start : ℕ) :
    ((facesIn.zipIdx start).map (fun q => (q.1.map (fun x => g (kf q.2 x))).flatten)).flatten.length
      = ((faceCells.map List.length).sum) * w := by
  induction hf generalizing start with
  | nil => simp
  | cons hab hf ih =>
    simp only [List.zipIdx_cons, List.map_cons, List.flatten_cons, List.length_append,
      List.sum_cons]
    rw [ih, flatten_length_uniform w]
    · simp [hab, Nat.add_mul]
    · intro xs hx; simp only [List.mem_map] at hx; obtain ⟨a, _, rfl⟩ := hx; exact hw _ _

theorem Problem.faceInds_count (p : Problem) :
    p.faceInds.length = (p.faceCells.map List.length).sum := by
  simp [Problem.faceInds, List.length_flatten, List.map_map, Function.comp_def, buildFaceInds]

/-- Inputs have the static shapes the problem prescribes. -/
structure Shapes {α β : Type*} (p : Problem) (kv : α → Local R) (kf : ℕ → β → Local R)
    (cellsIn : List α) (facesIn : List (List β)) : Prop where
  cells : cellsIn.length = p.numCells
  faces : List.Forall₂ (fun (a : List β) (b : List ℕ) => a.length = b.length) facesIn p.faceCells
  volJac : ∀ a, (kv a).jac.length = p.ndof * p.ndof
  volRes : ∀ a, (kv a).res.length = p.ndof
  faceJac : ∀ k x, (kf k x).jac.length = p.ndof * p.ndof
  faceRes : ∀ k x, (kf k x).res.length = p.ndof

variable {α β : Type*} {p : Problem} {kv : α → Local R} {kf : ℕ → β → Local R}
  {cellsIn : List α} {facesIn : List (List β)}

theorem Problem.WF.volSlots_flatten (h : p.WF) :
    p.volSlots.flatten = p.maps.fullSlot.take (p.numCells * (p.ndof * p.ndof)) := by
  unfold Problem.volSlots
  rw [reshapeRows_flatten]
  rw [List.length_take, h.fullSlot_length, Nat.add_mul]; omega

theorem Problem.WF.volSlots_width (h : p.WF) :
    ∀ r ∈ p.volSlots, r.length = p.ndof * p.ndof := by
  apply reshapeRows_mem_length
  rw [List.length_take, h.fullSlot_length, Nat.add_mul]; omega

theorem volPart_getD (h : p.WF) (hs : Shapes p kv kf cellsIn facesIn) (zv : α) {batch : ℕ}
    (hb : 0 < batch) {s : ℕ} (hsl : s < p.maps.nse) :
    (volScan (fun a => (kv a).jac) zv cellsIn
      (slotSort p.volSlots (p.ndof * p.ndof) p.maps.nse batch) (p.maps.nse + 1) batch).getD s 0
      = segSumAt ((p.maps.fullSlot.take (p.numCells * (p.ndof * p.ndof))).zip
          (cellsIn.map (fun a => (kv a).jac)).flatten) s := by
  rw [volScan_slotSort _ _ _ _ _ _ _ hb (by simp [hs.cells, Problem.volSlots]) h.volSlots_width hs.volJac
    (by omega) (by omega), h.volSlots_flatten]

theorem volVals_length (hs : Shapes p kv kf cellsIn facesIn) :
    (cellsIn.map (fun a => (kv a).jac)).flatten.length = p.numCells * (p.ndof * p.ndof) := by
  rw [flatten_length_uniform (p.ndof * p.ndof)]
  · simp [hs.cells]
  · intro xs hx; simp only [List.mem_map] at hx; obtain ⟨a, _, rfl⟩ := hx; exact hs.volJac a

/-- CSR data after adding the surface block. -/
theorem jac_data_getD (h : p.WF) (hs : Shapes p kv kf cellsIn facesIn) (zv : α) {batch : ℕ}
    (hb : 0 < batch) {s : ℕ} (hsl : s < p.maps.nse) :
    (volScan (fun a => (kv a).jac) zv cellsIn
      (slotSort p.volSlots (p.ndof * p.ndof) p.maps.nse batch) (p.maps.nse + 1) batch).getD s 0 +
    (segmentSum (gather 0 ((facesIn.zipIdx.map
        (fun q => (q.1.map (fun x => (kf q.2 x).jac)).flatten)).flatten) (argsort p.faceSlots))
        (gather 0 p.faceSlots (argsort p.faceSlots)) (p.maps.nse + 1)).getD s 0
      = segSumAt (p.keysAll.zip (valsAll (·.jac) kv kf cellsIn facesIn)) (p.u.getD s 0) := by
  have hfl : ((facesIn.zipIdx.map
        (fun q => (q.1.map (fun x => (kf q.2 x).jac)).flatten)).flatten).length
        = p.faceSlots.length := by
    rw [faceVals_length (p.ndof * p.ndof) (·.jac) kf facesIn p.faceCells hs.faceJac hs.faces 0,
      Problem.faceSlots, List.length_drop, h.fullSlot_length, p.faceInds_count, Nat.add_mul]
    omega
  rw [volPart_getD h hs zv hb hsl, segmentSum_gather _ _ _ hfl (argsort_perm _),
    segmentSum_getD _ _ _ _ (by omega), ← segSumAt_append]
  have hcat : (p.maps.fullSlot.take (p.numCells * (p.ndof * p.ndof))).zip
        (cellsIn.map (fun a => (kv a).jac)).flatten ++
      p.faceSlots.zip ((facesIn.zipIdx.map
        (fun q => (q.1.map (fun x => (kf q.2 x).jac)).flatten)).flatten)
      = p.maps.fullSlot.zip (valsAll (·.jac) kv kf cellsIn facesIn) := by
    rw [← List.zip_append]
    · unfold Problem.faceSlots valsAll
      rw [List.take_append_drop]
    · rw [volVals_length hs, List.length_take, h.fullSlot_length, Nat.add_mul]; omega
  rw [hcat, p.segSumAt_fullSlot _ (by rw [← p.maps_nse]; exact hsl)]

theorem facesIn_nil_of_empty (hs : Shapes p kv kf cellsIn facesIn) (he : facesIn = []) :
    p.faceCells = [] := by
  have := hs.faces.length_eq
  rw [he] at this
  exact List.length_eq_zero_iff.mp this.symm

/-- The production route's CSR data. -/
theorem getJacobian_data (h : p.WF) (hs : Shapes p kv kf cellsIn facesIn) (zv : α) (zf : β)
    {batch : ℕ} (hb : 0 < batch) :
    (getJacobian p kv kf zv zf cellsIn facesIn false batch).data
      = p.u.map (segSumAt (p.keysAll.zip (valsAll (·.jac) kv kf cellsIn facesIn))) := by
  have hl := p.maps_nse
  apply list_eq_map_of_getD 0
  · unfold getJacobian
    simp only [Bool.false_eq_true, if_false]
    split_ifs
    · simp [volScan_length, hl]
    · simp [volScan_length, hl]
  · intro s hsu
    have hsl : s < p.maps.nse := by rw [hl]; exact hsu
    unfold getJacobian
    simp only [Bool.false_eq_true, if_false]
    rw [getD_take_lt _ _ hsl]
    rw [← jac_data_getD h hs zv hb hsl]
    split_ifs with he
    · have hf : facesIn = [] := by
        simpa [computeFace] using he
      subst hf
      have hf2 := facesIn_nil_of_empty hs rfl
      have : p.faceSlots = [] := by
        unfold Problem.faceSlots
        rw [List.drop_eq_nil_iff, h.fullSlot_length, p.faceInds_count, hf2]; simp
      rw [this]
      rw [segmentSum_getD _ _ _ _ (by omega)]
      simp [argsort, gather]
    · rw [computeFace_vals _ _ _ _ hb, vadd_getD _ _ (by simp [volScan_length])]

/-- The reference route's CSR data. -/
theorem getJacobianRef_data (h : p.WF) (hs : Shapes p kv kf cellsIn facesIn) (zv : α) (zf : β)
    {batch : ℕ} (hb : 0 < batch) :
    (getJacobianRef p kv kf zv zf cellsIn facesIn batch).data
      = p.u.map (segSumAt (p.keysAll.zip (valsAll (·.jac) kv kf cellsIn facesIn))) := by
  have hl := p.maps_nse
  have hv : ((scanVmapBatched kv zv cellsIn batch).map (·.jac)).flatten ++
    ((computeFace kf zf facesIn batch).map (fun fs => (fs.map (·.jac)).flatten)).flatten
      = valsAll (·.jac) kv kf cellsIn facesIn := by
    rw [computeFace_vals _ _ _ _ hb, scanVmapBatched_eq _ _ _ hb, List.map_map]; rfl
  apply list_eq_map_of_getD 0
  · simp [getJacobianRef, hl]
  · intro s hsu
    have hsl : s < p.maps.nse := by rw [hl]; exact hsu
    unfold getJacobianRef
    simp only [hv]
    rw [segmentSum_getD _ _ _ _ hsl]
    rw [p.maps_segIds, p.maps_perm]
    rw [segSumAt_relabel p.u_nodup (ks := gather 0 p.keysF (argsort p.keysF)) _
      (by rw [p.u_eq]; exact segIdsOf_spec _) hsu]
    have hkl : (gather 0 (valsAll (·.jac) kv kf cellsIn facesIn) p.filterIndices).length
        = p.keysF.length := by rw [p.keysF_eq]; simp
    rw [segSumAt_perm (gather_zip_perm 0 _ _ hkl (argsort_perm _))]
    -- filtered = all at a kept key
    set V := valsAll (·.jac) kv kf cellsIn facesIn with hV
    have hVl : V.length = p.keysAll.length := by
      rw [hV, valsAll, List.length_append, volVals_length hs,
        faceVals_length (p.ndof * p.ndof) (·.jac) kf facesIn p.faceCells hs.faceJac hs.faces 0]
      have := h.fullSlot_length
      rw [p.maps_fullSlot, List.length_map] at this
      rw [this, p.faceInds_count, Nat.add_mul]
    rw [p.keysF_eq]
    have hz : (gather 0 p.keysAll p.filterIndices).zip (gather 0 V p.filterIndices)
        = p.filterIndices.map (fun t => (p.keysAll.getD t 0, V.getD t 0)) := by
      unfold gather; rw [List.zip_map']
    rw [hz, zip_eq_range_map 0 0 _ _ hVl.symm]
    unfold segSumAt
    rw [List.filter_map, List.filter_map, List.map_map, List.map_map]
    unfold Problem.filterIndices
    rw [List.filter_filter, p.keysAll_length]
    congr 2
    apply List.filter_congr
    intro t ht
    have ht' : t < p.I.length := by simpa using ht
    simp only [Function.comp]
    rw [Bool.eq_iff_iff, Bool.and_eq_true]
    constructor
    · exact fun x => x.1
    · intro e
      refine ⟨e, ?_⟩
      have e' : p.keysAll.getD t 0 = p.u.getD s 0 := by simpa using e
      rw [p.keysAll_getD t ht'] at e'
      have ht2 : t < p.J.length := by rw [← p.I_length]; exact ht'
      have hmem : p.I.getD t 0 * p.n + p.J.getD t 0 ∈ p.u := by
        rw [e']; exact getD_mem_of_lt hsu
      exact ((h.key_mem_u (h.J_lt _ (getD_mem_of_lt ht2))).mp hmem).1

/-- Dense value of a CSR with the problem's structure and key-reduced data. -/
theorem todense_problem (h : p.WF) (f : ℕ → R) {i j : ℕ} (hi : i < p.n) (hj : j < p.n) :
    (CSRMatrix.mk (p.u.map f) p.maps.indptr p.maps.indices p.n p.n).todense i j
      = if i * p.n + j ∈ p.u then f (i * p.n + j) else 0 := by
  rw [p.maps_indptr, p.maps_indices]
  exact todense_of_keys p.n p.u p.u_sorted h.u_div_lt f hi hj

theorem elems_keys (elems : List (Spec.Elem R)) (hd : elems.map (·.dofs) = p.volInds ++ p.faceInds) :
    p.keysAll = (elems.map (fun e => elemKeys p.n e.dofs)).flatten := by
  rw [p.keysAll_eq, ← hd, List.map_map]; rfl

/-- Dense value from the element list. -/
theorem todense_elems (h : p.WF) (elems : List (Spec.Elem R)) (V : List R)
    (hd : elems.map (·.dofs) = p.volInds ++ p.faceInds)
    (hv : (elems.map (·.jac)).flatten = V)
    (hj : ∀ e ∈ elems, e.jac.length = e.dofs.length * e.dofs.length)
    {i j : ℕ} (hi : i < p.n) (hjn : j < p.n) :
    (CSRMatrix.mk (p.u.map (segSumAt (p.keysAll.zip V))) p.maps.indptr p.maps.indices
        p.n p.n).todense i j
      = if p.view.keep i j then Spec.assembledMat elems i j else 0 := by
  rw [todense_problem h _ hi hjn]
  have hb : ∀ e ∈ elems, ∀ x ∈ e.dofs, x < p.n := by
    intro e he x hx
    have : e.dofs ∈ p.volInds ++ p.faceInds := by
      rw [← hd]; exact List.mem_map.mpr ⟨e, he, rfl⟩
    rcases List.mem_append.mp this with hm | hm
    · exact h.volInds_lt _ hm x hx
    · exact h.faceInds_lt _ hm x hx
  have key := segSumAt_elems p.n elems hj hb (i := i) hjn
  rw [hv, ← elems_keys elems hd] at key
  rw [key]
  by_cases hk : p.view.keep i j = true
  · rw [if_pos hk]
    split_ifs with hm
    · rfl
    · rw [← key, segSumAt_eq_zero]
      rintro ⟨k, x⟩ hkx e
      have hk1 := (List.of_mem_zip hkx).1
      simp only at e
      rw [e] at hk1
      exact hm ((h.key_mem_u hjn).mpr ⟨hk, hk1⟩)
  · rw [if_neg hk, if_neg]
    intro hm
    exact hk ((h.key_mem_u hjn).mp hm).1

end

end Verif.Model
