import Verif.Lemmas.Jacobian

/-! # Residual assembly and the fused route (proof machinery) -/

namespace Verif.Model

set_option linter.unusedSectionVars false

section
variable {R : Type*} [AddCommMonoid R]
variable {α β : Type*} {p : Problem} {kv : α → Local R} {kf : ℕ → β → Local R}
  {cellsIn : List α} {facesIn : List (List β)}

theorem Problem.WF.volDofs_length (h : p.WF) : p.volInds.flatten.length = p.numCells * p.ndof := by
  rw [flatten_length_uniform p.ndof _ h.volInds_length, p.volInds_count]

theorem Problem.WF.faceDofs_length (h : p.WF) :
    p.faceInds.flatten.length = (p.faceCells.map List.length).sum * p.ndof := by
  rw [flatten_length_uniform p.ndof _ h.faceInds_length, p.faceInds_count]

theorem volResVals_length (hs : Shapes p kv kf cellsIn facesIn) :
    (cellsIn.map (fun a => (kv a).res)).flatten.length = p.numCells * p.ndof := by
  rw [flatten_length_uniform p.ndof]
  · simp [hs.cells]
  · intro xs hx; simp only [List.mem_map] at hx; obtain ⟨a, _, rfl⟩ := hx; exact hs.volRes a

theorem valsAll_res_length (h : p.WF) (hs : Shapes p kv kf cellsIn facesIn) :
    (valsAll (·.res) kv kf cellsIn facesIn).length = p.resDofs.length := by
  rw [valsAll, List.length_append, volResVals_length hs,
    faceVals_length p.ndof (·.res) kf facesIn p.faceCells hs.faceRes hs.faces 0,
    Problem.resDofs, List.length_append, h.volDofs_length, h.faceDofs_length]

theorem getRes_eq (h : p.WF) (hs : Shapes p kv kf cellsIn facesIn) (zv : α) (zf : β) {batch : ℕ}
    (hb : 0 < batch) :
    getRes p kv kf zv zf cellsIn facesIn batch
      = (List.range p.n).map (segSumAt (p.resDofs.zip (valsAll (·.res) kv kf cellsIn facesIn))) := by
  have hv : ((scanVmapBatched kv zv cellsIn batch).map (·.res)).flatten ++
    ((computeFace kf zf facesIn batch).map (fun fs => (fs.map (·.res)).flatten)).flatten
      = valsAll (·.res) kv kf cellsIn facesIn := by
    rw [computeFace_vals _ _ _ _ hb, scanVmapBatched_eq _ _ _ hb, List.map_map]; rfl
  unfold getRes
  simp only [hv]
  rw [segmentSum_gather _ _ _ (valsAll_res_length h hs) (argsort_perm _)]
  rfl

theorem getResJ_res (h : p.WF) (hs : Shapes p kv kf cellsIn facesIn) (zv : α) (zf : β) {batch : ℕ}
    (hb : 0 < batch) :
    (getResJ p kv kf zv zf cellsIn facesIn batch).1
      = (List.range p.n).map (segSumAt (p.resDofs.zip (valsAll (·.res) kv kf cellsIn facesIn))) := by
  have htake : p.resDofs.take (p.numCells * p.ndof) = p.volInds.flatten := by
    rw [Problem.resDofs, List.take_append_of_le_length (by rw [h.volDofs_length]),
      List.take_of_length_le (by rw [h.volDofs_length])]
  have hdrop : p.resDofs.drop (p.numCells * p.ndof) = p.faceInds.flatten := by
    rw [Problem.resDofs, List.drop_append_of_le_length (by rw [h.volDofs_length]),
      List.drop_of_length_le (by rw [h.volDofs_length]), List.nil_append]
  have hrow : reshapeRows p.numCells p.ndof p.volInds.flatten = p.volInds := by
    rw [← p.volInds_count]; exact reshapeRows_of_flatten _ _ h.volInds_length
  have hfl : ((facesIn.zipIdx.map
        (fun q => (q.1.map (fun x => (kf q.2 x).res)).flatten)).flatten).length
        = p.faceInds.flatten.length := by
    rw [faceVals_length p.ndof (·.res) kf facesIn p.faceCells hs.faceRes hs.faces 0,
      h.faceDofs_length]
  apply list_eq_map_of_getD 0
  · unfold getResJ
    simp only
    split_ifs <;> simp [volScan_length]
  · intro s hsr
    have hsn : s < p.n := by simpa using hsr
    have hrange : (List.range p.n).getD s 0 = s := by
      simp [List.getD_eq_getElem?_getD, hsn]
    rw [hrange]
    unfold getResJ
    simp only [htake, hdrop, hrow]
    rw [getD_take_lt _ _ hsn]
    have hvol := volScan_slotSort (fun a => (kv a).res) zv cellsIn p.volInds p.ndof p.n (p.n + 1) hb
      (by rw [hs.cells, p.volInds_count]) h.volInds_length hs.volRes (s := s) (by omega) (by omega)
    have htot : segSumAt (p.volInds.flatten.zip (cellsIn.map (fun a => (kv a).res)).flatten) s
        + segSumAt (p.faceInds.flatten.zip ((facesIn.zipIdx.map
          (fun q => (q.1.map (fun x => (kf q.2 x).res)).flatten)).flatten)) s
        = segSumAt (p.resDofs.zip (valsAll (·.res) kv kf cellsIn facesIn)) s := by
      rw [← segSumAt_append, ← List.zip_append]
      · rfl
      · rw [h.volDofs_length, volResVals_length hs]
    split_ifs with he
    · have hf : facesIn = [] := by simpa [computeFace] using he
      subst hf
      rw [hvol, ← htot]
      simp
    · rw [computeFace_vals _ _ _ _ hb, vadd_getD _ _ (by simp [volScan_length]), hvol,
        segmentSum_gather _ _ _ hfl (argsort_perm _), segmentSum_getD _ _ _ _ (by omega), htot]

theorem getResJ_jac (zv : α) (zf : β) (batch : ℕ) :
    (getResJ p kv kf zv zf cellsIn facesIn batch).2
      = getJacobian p kv kf zv zf cellsIn facesIn false batch := by
  unfold getResJ getJacobian
  simp only [Bool.false_eq_true, if_false]

end

end Verif.Model
