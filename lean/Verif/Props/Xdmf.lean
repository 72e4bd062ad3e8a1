import Verif.Model.Xdmf
import Mathlib.Data.List.Forall2
import Mathlib.Data.List.Nodup
import Mathlib.Tactic.Tauto

/-!
# C41, C68: output files
-/

namespace Verif.Props
open Verif.Model

variable {T α : Type}

/-! ## Specification -/

/-- The calls that were accepted, in order. -/
def acceptedCalls (calls : List (XCall T α)) (ok : List Bool) : List (XCall T α) :=
  ((calls.zip ok).filter (·.2)).map (·.1)

/-- An attribute of the index shows a field: same name, a dataset that exists, holds the values given and has the type
and dimensions stated. -/
def FieldShown (h5 : List (H5Path × List ℕ × α)) (n : ℕ) (c : Center) (f : XField α) (a : XAttr) : Prop :=
  a.name = f.name ∧ a.center = c ∧ ∃ s, normalizeShape n f.shape = .ok s ∧ attributeType s = .ok (a.type, a.dims) ∧
    h5.lookup a.path = some (s, f.data)

/-- A grid of the index shows a call. -/
def FrameShown (h5 : List (H5Path × List ℕ × α)) (nP nC : ℕ) (c : XCall T α) (g : XGrid T) : Prop :=
  g.time = c.time ∧ ∃ ps cs, g.attrs = ps ++ cs ∧ List.Forall₂ (FieldShown h5 nP .node) c.points ps ∧
    List.Forall₂ (FieldShown h5 nC .cell) c.cells cs

/-- The names of the fields of a call. -/
def namesOf (c : XCall T α) : List String × List String := (c.points.map (·.name), c.cells.map (·.name))

/-! ## Proofs -/

theorem mapM_forall₂ {β γ : Type} (f : β → Except PyErr γ) (l : List β) (r : List γ) (h : l.mapM f = .ok r) :
    List.Forall₂ (fun a b => f a = .ok b) l r := by
  induction l generalizing r with
  | nil =>
    simp only [List.mapM_nil, pure, Except.pure, Except.ok.injEq] at h
    subst h
    exact .nil
  | cons a l ih =>
    rw [List.mapM_cons] at h
    cases ha : f a with
    | error e => rw [ha] at h; cases h
    | ok b =>
      rw [ha] at h
      cases hl : l.mapM f with
      | error e => rw [hl] at h; cases h
      | ok bs =>
        rw [hl] at h
        simp only [bind, Except.bind, pure, Except.pure, Except.ok.injEq] at h
        subst h
        exact .cons ha (ih bs hl)

theorem lookup_of_mem_nodup {κ β : Type} [BEq κ] [LawfulBEq κ] (l : List (κ × β)) (hn : (l.map (·.1)).Nodup) {k : κ} {v : β}
    (h : (k, v) ∈ l) : l.lookup k = some v := by
  induction l with
  | nil => cases h
  | cons p l ih =>
    obtain ⟨k', v'⟩ := p
    rw [List.map_cons, List.nodup_cons] at hn
    rcases List.mem_cons.1 h with e | h'
    · cases e
      simp [List.lookup]
    · have hne : k ≠ k' := by
        rintro rfl
        exact hn.1 (List.mem_map.2 ⟨_, h', rfl⟩)
      have : (k == k') = false := by simpa using hne
      rw [List.lookup_cons, this]
      exact ih hn.2 h'

/-- What the loop over fields leaves in the file, whether it raises or not. -/
theorem writeFields_grows (n id : ℕ) (c : Center) (fs : List (XField α)) (h5 : List (H5Path × List ℕ × α))
    (hn : (h5.map (·.1)).Nodup) :
    (∃ added, (writeFields n id c fs h5).1 = h5 ++ added ∧ ∀ d ∈ added, d.1.1 = id ∧ d.1.2.1 = c) ∧
      ((writeFields n id c fs h5).1.map (·.1)).Nodup := by
  induction fs generalizing h5 with
  | nil => exact ⟨⟨[], by simp [writeFields], by simp⟩, by simpa [writeFields] using hn⟩
  | cons f fs ih =>
    unfold writeFields
    cases normalizeShape n f.shape with
    | error e => exact ⟨⟨[], by simp, by simp⟩, by simpa using hn⟩
    | ok s =>
      simp only
      split
      · exact ⟨⟨[], by simp, by simp⟩, by simpa using hn⟩
      · rename_i hex
        have hn' : ((h5 ++ [((id, c, f.name), s, f.data)]).map (·.1)).Nodup := by
          rw [List.map_append, List.nodup_append]
          refine ⟨hn, by simp, ?_⟩
          intro a ha b hb
          simp only [List.map_cons, List.map_nil, List.mem_singleton] at hb
          subst hb
          rintro rfl
          obtain ⟨d, hd, hd2⟩ := List.mem_map.1 ha
          exact hex (List.any_eq_true.2 ⟨d, hd, by simp [hd2]⟩)
        obtain ⟨⟨added, h1, h2⟩, h3⟩ := ih _ hn'
        refine ⟨⟨((id, c, f.name), s, f.data) :: added, by rw [h1]; simp, ?_⟩, h3⟩
        intro d hd
        rcases List.mem_cons.1 hd with rfl | hd
        · exact ⟨rfl, rfl⟩
        · exact h2 d hd

theorem writeFields_ok (n id : ℕ) (c : Center) (fs : List (XField α)) (h5 : List (H5Path × List ℕ × α))
    (hn : (h5.map (·.1)).Nodup) (recs : List (String × List ℕ)) (h : (writeFields n id c fs h5).2 = .ok recs) :
    List.Forall₂ (fun f (r : String × List ℕ) => r.1 = f.name ∧ normalizeShape n f.shape = .ok r.2 ∧
      ((id, c, f.name), r.2, f.data) ∈ (writeFields n id c fs h5).1) fs recs := by
  induction fs generalizing h5 recs with
  | nil =>
    simp only [writeFields, Except.ok.injEq] at h
    subst h
    exact .nil
  | cons f fs ih =>
    unfold writeFields at h ⊢
    cases hs : normalizeShape n f.shape with
    | error e => rw [hs] at h; cases h
    | ok s =>
      rw [hs] at h
      simp only at h ⊢
      split at h
      · cases h
      · rename_i hex
        rw [if_neg hex]
        have hn' : ((h5 ++ [((id, c, f.name), s, f.data)]).map (·.1)).Nodup := by
          rw [List.map_append, List.nodup_append]
          refine ⟨hn, by simp, ?_⟩
          intro a ha b hb
          simp only [List.map_cons, List.map_nil, List.mem_singleton] at hb
          subst hb
          rintro rfl
          obtain ⟨d, hd, hd2⟩ := List.mem_map.1 ha
          exact hex (List.any_eq_true.2 ⟨d, hd, by simp [hd2]⟩)
        cases hr : (writeFields n id c fs (h5 ++ [((id, c, f.name), s, f.data)])).2 with
        | error e => rw [hr] at h; cases h
        | ok rs =>
          rw [hr] at h
          simp only [Except.map, Except.ok.injEq] at h
          subst h
          refine .cons ⟨rfl, hs, ?_⟩ (ih _ hn' rs hr)
          obtain ⟨⟨added, h1, -⟩, -⟩ := writeFields_grows n id c fs _ hn'
          rw [h1]
          simp

/-- Invariant of a session: `acc` are the calls accepted so far. -/
structure XInv (w : XWriter T α) (nP nC : ℕ) (acc : List (XCall T α)) : Prop where
  np : w.nPoints = nP
  nc : w.nCells = nC
  keys : (w.h5.map (·.1)).Nodup
  fid : w.frameId = acc.length
  sig : ∀ c ∈ acc, w.signature = some (namesOf c)
  frames : ∃ frs, w.frames = some frs ∧ List.Forall₂ (fun (c : XCall T α) (fr : XFrame T) => fr.time = c.time ∧
    List.Forall₂ (fun f (r : String × List ℕ) => r.1 = f.name ∧ normalizeShape nP f.shape = .ok r.2 ∧
      ((fr.id, Center.node, f.name), r.2, f.data) ∈ w.h5) c.points fr.points ∧
    List.Forall₂ (fun f (r : String × List ℕ) => r.1 = f.name ∧ normalizeShape nC f.shape = .ok r.2 ∧
      ((fr.id, Center.cell, f.name), r.2, f.data) ∈ w.h5) c.cells fr.cells) acc frs

/-- The invariant with a larger file. -/
theorem XInv.mono {w w' : XWriter T α} {nP nC : ℕ} {acc : List (XCall T α)} (h : XInv w nP nC acc)
    (e1 : w'.nPoints = w.nPoints) (e2 : w'.nCells = w.nCells) (e3 : (w'.h5.map (·.1)).Nodup)
    (e4 : ∀ d ∈ w.h5, d ∈ w'.h5) (e5 : w'.frameId = w.frameId) (e6 : w'.frames = w.frames)
    (e7 : w.signature.isSome → w'.signature = w.signature) : XInv w' nP nC acc := by
  refine ⟨e1.trans h.np, e2.trans h.nc, e3, e5.trans h.fid, ?_, ?_⟩
  · intro c hc
    have := h.sig c hc
    rw [e7 (by rw [this]; rfl), this]
  · obtain ⟨frs, h1, h2⟩ := h.frames
    refine ⟨frs, e6.trans h1, h2.imp ?_⟩
    rintro c fr ⟨a, b, d⟩
    exact ⟨a, b.imp fun f r ⟨x, y, z⟩ => ⟨x, y, e4 _ z⟩, d.imp fun f r ⟨x, y, z⟩ => ⟨x, y, e4 _ z⟩⟩

theorem write_inv {w : XWriter T α} {nP nC : ℕ} {acc : List (XCall T α)} (h : XInv w nP nC acc) (c : XCall T α) :
    XInv (w.write c).1 nP nC (match (w.write c).2 with | .ok _ => acc ++ [c] | .error _ => acc) := by
  unfold XWriter.write
  by_cases ho : w.isOpen = false
  · rw [if_pos ho]
    exact h
  · rw [if_neg ho]
    by_cases hg : w.frameId ∈ w.groups
    · rw [if_pos hg]
      exact h
    · rw [if_neg hg]
      simp only
      by_cases hs : w.signature.isSome ∧ w.signature ≠ some (c.points.map (·.name), c.cells.map (·.name))
      · rw [if_pos hs]
        exact h.mono rfl rfl h.keys (fun d hd => hd) rfl rfl fun _ => rfl
      · rw [if_neg hs]
        have hsig : w.signature.isSome → some (c.points.map (·.name), c.cells.map (·.name)) = w.signature := by
          intro hx
          by_contra hne
          exact hs ⟨hx, fun e => hne e.symm⟩
        obtain ⟨⟨a1, g1, -⟩, n1⟩ := writeFields_grows w.nPoints w.frameId .node c.points w.h5 h.keys
        have hk := writeFields_ok w.nPoints w.frameId .node c.points w.h5 h.keys
        set rp := writeFields w.nPoints w.frameId .node c.points w.h5 with hrp
        obtain ⟨⟨a2, g2, -⟩, n2⟩ := writeFields_grows w.nCells w.frameId .cell c.cells rp.1 n1
        have hk2 := writeFields_ok w.nCells w.frameId .cell c.cells rp.1 n1
        set rc := writeFields w.nCells w.frameId .cell c.cells rp.1 with hrc
        have m1 : ∀ d ∈ w.h5, d ∈ rp.1 := fun d hd => by rw [g1]; exact List.mem_append_left _ hd
        have m2 : ∀ d ∈ rp.1, d ∈ rc.1 := fun d hd => by rw [g2]; exact List.mem_append_left _ hd
        cases hp2 : rp.2 with
        | error e => exact h.mono rfl rfl n1 m1 rfl rfl hsig
        | ok ps =>
          simp only
          cases hc2 : rc.2 with
          | error e => exact h.mono rfl rfl n2 (fun d hd => m2 d (m1 d hd)) rfl rfl hsig
          | ok cs =>
            simp only
            have hm : XInv { w with h5 := rc.1, signature := some (c.points.map (·.name), c.cells.map (·.name)) } nP nC acc :=
              h.mono rfl rfl n2 (fun d hd => m2 d (m1 d hd)) rfl rfl hsig
            refine ⟨hm.np, hm.nc, hm.keys, ?_, ?_, ?_⟩
            · simp [h.fid]
            · intro c' hc'
              rcases List.mem_append.1 hc' with hc' | hc'
              · exact hm.sig c' hc'
              · rw [List.mem_singleton.1 hc']
                rfl
            · obtain ⟨frs, f1, f2⟩ := hm.frames
              refine ⟨frs ++ [⟨c.time, w.frameId, ps, cs⟩], ?_, ?_⟩
              · have : w.frames = some frs := f1
                simp [this]
              · refine List.rel_append f2 (.cons ⟨rfl, ?_, ?_⟩ .nil)
                · have := hk ps hp2
                  rw [h.np] at this
                  exact this.imp fun f r ⟨x, y, z⟩ => ⟨x, y, m2 _ z⟩
                · have := hk2 cs hc2
                  rw [h.nc] at this
                  exact this

theorem writes_inv {w : XWriter T α} {nP nC : ℕ} {acc : List (XCall T α)} (h : XInv w nP nC acc)
    (calls : List (XCall T α)) : XInv (w.writes calls).1 nP nC (acc ++ acceptedCalls calls (w.writes calls).2) := by
  induction calls generalizing w acc with
  | nil => simpa [XWriter.writes, acceptedCalls] using h
  | cons c cs ih =>
    have h1 := write_inv h c
    have h2 := ih h1
    unfold XWriter.writes
    cases hr : (w.write c).2 with
    | error e =>
      rw [hr] at h2
      simpa [acceptedCalls, hr, Except.toBool] using h2
    | ok u =>
      rw [hr] at h2
      simpa [acceptedCalls, hr, Except.toBool] using h2

theorem enter_inv {w w0 : XWriter T α} (h : w.enter = .ok w0) : XInv w0 w.nPoints w.nCells [] := by
  unfold XWriter.enter at h
  split at h
  · cases h
  · injection h with h
    subst h
    exact ⟨rfl, rfl, by simp, rfl, by simp, [], rfl, .nil⟩

theorem writes_length (w : XWriter T α) (calls : List (XCall T α)) : (w.writes calls).2.length = calls.length := by
  induction calls generalizing w with
  | nil => rfl
  | cons c cs ih => simp [XWriter.writes, ih]

theorem exit_eq (w : XWriter T α) (frs : List (XFrame T)) (h : w.frames = some frs) :
    w.exit = match frs.mapM frameGrid with
      | .error e => ({ w with isOpen := false }, .error e)
      | .ok gs => ({ w with isOpen := false, xml := some gs }, .ok ()) := by
  unfold XWriter.exit
  simp only
  split
  · rename_i hn
    rw [h] at hn
    cases hn
  · rename_i fs hf
    rw [h] at hf
    injection hf with hf
    subst hf
    rfl

/-- **C41.** Enter the writer (in whatever state earlier use left it), make any calls, accepted or rejected, and leave.
If leaving succeeds, the index has exactly one grid per accepted call, in order, with its time; its attributes are the
call's fields, each referring to a dataset that exists in the HDF5 file with the values given; and all accepted calls
have the same field names. -/
theorem C41_index_consistent (w w0 : XWriter T α) (hw : w.enter = .ok w0) (calls : List (XCall T α))
    (hx : (w0.writes calls).1.exit.2 = .ok ()) :
    let w1 := (w0.writes calls).1.exit.1
    let acc := acceptedCalls calls (w0.writes calls).2
    (∃ gs, w1.xml = some gs ∧ List.Forall₂ (FrameShown w1.h5 w.nPoints w.nCells) acc gs) ∧
      ∀ c ∈ acc, ∀ c' ∈ acc, namesOf c = namesOf c' := by
  intro w1 acc
  have hi := writes_inv (enter_inv hw) calls
  rw [List.nil_append] at hi
  refine ⟨?_, ?_⟩
  swap
  · intro c hc c' hc'
    have := (hi.sig c hc).symm.trans (hi.sig c' hc')
    exact Option.some.inj this
  obtain ⟨frs, h1, h2⟩ := hi.frames
  set w2 := (w0.writes calls).1 with hw2
  have hex : w2.exit = match frs.mapM frameGrid with
      | .error e => ({ w2 with isOpen := false }, .error e)
      | .ok gs => ({ w2 with isOpen := false, xml := some gs }, .ok ()) := by
    exact exit_eq w2 frs h1
  cases hm : frs.mapM (frameGrid (T := T)) with
  | error e =>
    rw [hex, hm] at hx
    cases hx
  | ok gs =>
    have hw1 : w1 = { w2 with isOpen := false, xml := some gs } := by
      change w2.exit.1 = _
      rw [hex, hm]
    refine ⟨gs, by rw [hw1], ?_⟩
    have hh5 : w1.h5 = w2.h5 := by rw [hw1]
    rw [hh5]
    have h3 := mapM_forall₂ frameGrid frs gs hm
    refine List.forall₂_of_length_eq_of_get (by rw [h2.length_eq, h3.length_eq]) ?_
    intro i hi1 hi2
    have hi3 : i < frs.length := by rw [h3.length_eq]; exact hi2
    have r1 := h2.get hi1 hi3
    have r2 := h3.get hi3 hi2
    simp only [List.get_eq_getElem] at r1 r2
    obtain ⟨t1, p1, c1⟩ := r1
    unfold frameGrid at r2
    have attrs : ∀ (n : ℕ) (c : Center) (id : ℕ) (fs : List (XField α)) (recs : List (String × List ℕ)) (as : List XAttr),
        List.Forall₂ (fun f (r : String × List ℕ) => r.1 = f.name ∧ normalizeShape n f.shape = .ok r.2 ∧
          ((id, c, f.name), r.2, f.data) ∈ w2.h5) fs recs → frameAttrs id c recs = .ok as →
        List.Forall₂ (FieldShown w2.h5 n c) fs as := by
      intro n c id fs recs as hf ha
      have ha2 := mapM_forall₂ _ _ _ ha
      refine List.forall₂_of_length_eq_of_get (by rw [hf.length_eq, ha2.length_eq]) ?_
      intro j hj1 hj2
      have hj3 : j < recs.length := by rw [ha2.length_eq]; exact hj2
      have s1 := hf.get hj1 hj3
      have s2 := ha2.get hj3 hj2
      simp only [List.get_eq_getElem] at s1 s2
      obtain ⟨x, y, z⟩ := s1
      cases hat : attributeType recs[j].2 with
      | error e => rw [hat] at s2; cases s2
      | ok td =>
        rw [hat] at s2
        simp only [Except.map, Except.ok.injEq] at s2
        simp only [List.get_eq_getElem]
        rw [← s2]
        refine ⟨x, rfl, recs[j].2, y, hat, ?_⟩
        simp only [x]
        exact lookup_of_mem_nodup _ hi.keys z
    cases hp : frameAttrs frs[i].id .node frs[i].points with
    | error e => rw [hp] at r2; cases r2
    | ok ps =>
      rw [hp] at r2
      cases hc : frameAttrs frs[i].id .cell frs[i].cells with
      | error e => rw [hc] at r2; cases r2
      | ok cs =>
        rw [hc] at r2
        simp only [bind, Except.bind, Except.ok.injEq] at r2
        simp only [List.get_eq_getElem]
        rw [← r2]
        exact ⟨t1, ps, cs, rfl, attrs _ _ _ _ _ _ p1 hp, attrs _ _ _ _ _ _ c1 hc⟩

/-! ### When are calls accepted? -/

theorem writeFields_complete (n id : ℕ) (c : Center) (fs : List (XField α)) (h5 : List (H5Path × List ℕ × α))
    (hs : ∀ f ∈ fs, ∃ s, normalizeShape n f.shape = .ok s) (hn : (fs.map (·.name)).Nodup)
    (hfree : ∀ d ∈ h5, ∀ f ∈ fs, d.1 ≠ (id, c, f.name)) : ∃ recs, (writeFields n id c fs h5).2 = .ok recs := by
  induction fs generalizing h5 with
  | nil => exact ⟨[], rfl⟩
  | cons f fs ih =>
    obtain ⟨s, h1⟩ := hs f (by simp)
    unfold writeFields
    rw [h1]
    simp only
    rw [if_neg]
    · rw [List.map_cons, List.nodup_cons] at hn
      obtain ⟨recs, hr⟩ := ih (h5 ++ [((id, c, f.name), s, f.data)]) (fun g hg => hs g (by simp [hg])) hn.2 (by
        intro d hd g hg
        rcases List.mem_append.1 hd with hd | hd
        · exact hfree d hd g (by simp [hg])
        · rw [List.mem_singleton.1 hd]
          intro e
          simp only [Prod.mk.injEq, true_and] at e
          exact hn.1 (List.mem_map.2 ⟨g, hg, e.symm⟩))
      exact ⟨_, by rw [hr]; rfl⟩
    · intro h
      obtain ⟨d, hd, he⟩ := List.any_eq_true.1 h
      exact hfree d hd f (by simp) (by simpa using he)

/-- A call whose fields have distinct names and an accepted shape. -/
def ValidFields (nP nC : ℕ) (c : XCall T α) : Prop :=
  (c.points.map (·.name)).Nodup ∧ (c.cells.map (·.name)).Nodup ∧
    (∀ f ∈ c.points, ∃ s, normalizeShape nP f.shape = .ok s) ∧ (∀ f ∈ c.cells, ∃ s, normalizeShape nC f.shape = .ok s)

/-- State of a session in which no call was rejected. -/
def CleanSession (w : XWriter T α) : Prop :=
  w.isOpen = true ∧ (∀ g ∈ w.groups, g < w.frameId) ∧ (∀ d ∈ w.h5, d.1.1 < w.frameId) ∧ (w.h5.map (·.1)).Nodup

theorem write_clean {w : XWriter T α} (hw : CleanSession w) (c : XCall T α) (hv : ValidFields w.nPoints w.nCells c)
    (hs : w.signature = none ∨ w.signature = some (namesOf c)) :
    (w.write c).2 = .ok () ∧ CleanSession (w.write c).1 ∧ (w.write c).1.signature = some (namesOf c) ∧
      (w.write c).1.nPoints = w.nPoints ∧ (w.write c).1.nCells = w.nCells := by
  obtain ⟨ho, hg, hd, hk⟩ := hw
  obtain ⟨v1, v2, v3, v4⟩ := hv
  unfold XWriter.write
  rw [if_neg (by simp [ho]), if_neg (fun h => absurd (hg _ h) (lt_irrefl _))]
  simp only
  have hsig : ¬(w.signature.isSome ∧ w.signature ≠ some (c.points.map (·.name), c.cells.map (·.name))) := by
    rcases hs with h | h
    · simp [h]
    · simp [h, namesOf]
  rw [if_neg hsig]
  obtain ⟨ps, hp⟩ := writeFields_complete w.nPoints w.frameId .node c.points w.h5 v3 v1 (by
    intro d hd' f _ e
    have := hd d hd'
    rw [e] at this
    exact absurd this (lt_irrefl _))
  obtain ⟨⟨a1, g1, t1⟩, n1⟩ := writeFields_grows w.nPoints w.frameId .node c.points w.h5 hk
  set rp := writeFields w.nPoints w.frameId .node c.points w.h5
  obtain ⟨cs, hc⟩ := writeFields_complete w.nCells w.frameId .cell c.cells rp.1 v4 v2 (by
    intro d hd' f _ e
    rw [g1] at hd'
    rcases List.mem_append.1 hd' with hd' | hd'
    · have := hd d hd'
      rw [e] at this
      exact absurd this (lt_irrefl _)
    · have := (t1 d hd').2
      rw [e] at this
      cases this)
  obtain ⟨⟨a2, g2, t2⟩, n2⟩ := writeFields_grows w.nCells w.frameId .cell c.cells rp.1 n1
  set rc := writeFields w.nCells w.frameId .cell c.cells rp.1
  rw [hp]
  simp only
  rw [hc]
  simp only
  refine ⟨trivial, ⟨ho, ?_, ?_, n2⟩, rfl, trivial, trivial⟩
  · intro g hg'
    rcases List.mem_cons.1 hg' with rfl | hg'
    · exact Nat.lt_succ_self _
    · exact Nat.lt_succ_of_lt (hg g hg')
  · intro d hd'
    change d ∈ rc.1 at hd'
    change d.1.1 < w.frameId + 1
    rw [g2, g1] at hd'
    rcases List.mem_append.1 hd' with hd' | hd'
    · rcases List.mem_append.1 hd' with hd' | hd'
      · exact Nat.lt_succ_of_lt (hd d hd')
      · rw [(t1 d hd').1]
        exact Nat.lt_succ_self _
    · rw [(t2 d hd').1]
      exact Nat.lt_succ_self _

theorem writes_clean {w : XWriter T α} (hw : CleanSession w) (calls : List (XCall T α)) (names : List String × List String)
    (hv : ∀ c ∈ calls, ValidFields w.nPoints w.nCells c ∧ namesOf c = names)
    (hs : w.signature = none ∨ w.signature = some names) : ∀ b ∈ (w.writes calls).2, b = true := by
  induction calls generalizing w with
  | nil => simp [XWriter.writes]
  | cons c cs ih =>
    obtain ⟨v, vn⟩ := hv c (by simp)
    obtain ⟨h1, h2, h3, h4, h5⟩ := write_clean hw c v (by rw [vn]; exact hs)
    intro b hb
    simp only [XWriter.writes, List.mem_cons] at hb
    rcases hb with rfl | hb
    · rw [h1]
      rfl
    · refine ih h2 ?_ ?_ b hb
      · intro c' hc'
        rw [h4, h5]
        exact hv c' (by simp [hc'])
      · right
        rw [h3, vn]

/-- **C41 (partial).** As long as every call is valid (accepted shapes, distinct names, the same names in every call), all
calls of a fresh writer are accepted. Missing: a rejected call before them (`C41_rejected_call_blocks_later`). -/
theorem C41_valid_calls_accepted_partial (w w0 : XWriter T α) (hw : w.enter = .ok w0) (hsig : w.signature = none)
    (calls : List (XCall T α)) (names : List String × List String)
    (hv : ∀ c ∈ calls, ValidFields w.nPoints w.nCells c ∧ namesOf c = names) :
    acceptedCalls calls (w0.writes calls).2 = calls := by
  have hw0 : CleanSession w0 ∧ w0.signature = none ∧ w0.nPoints = w.nPoints ∧ w0.nCells = w.nCells := by
    unfold XWriter.enter at hw
    split at hw
    · cases hw
    · injection hw with hw
      subst hw
      exact ⟨⟨rfl, by simp, by simp, by simp⟩, hsig, rfl, rfl⟩
  have h := writes_clean hw0.1 calls names (by rw [hw0.2.2.1, hw0.2.2.2]; exact hv) (Or.inl hw0.2.1)
  have hl := writes_length w0 calls
  generalize (w0.writes calls).2 = bs at h hl
  clear hv hw hw0
  induction calls generalizing bs with
  | nil => simp [acceptedCalls]
  | cons c cs ih =>
    cases bs with
    | nil => simp at hl
    | cons b bs =>
      rw [h b (by simp)]
      have := ih bs (fun x hx => h x (by simp [hx])) (by simpa using hl)
      unfold acceptedCalls at this ⊢
      simp [this]

/-- **C41 is false of the code**: once a call has been rejected inside a session, every later call of the session is
rejected, however valid: the group of the failed frame exists and its number is not advanced. -/
theorem C41_rejected_call_blocks_later (w : XWriter T α) (ho : w.isOpen = true) (c : XCall T α) (e : PyErr)
    (h : (w.write c).2 = .error e) (later : List (XCall T α)) :
    ∀ b ∈ ((w.write c).1.writes later).2, b = false := by
  have h1 : (w.write c).1.isOpen = true ∧ (w.write c).1.frameId ∈ (w.write c).1.groups := by
    unfold XWriter.write at h ⊢
    rw [if_neg (by simp [ho])] at h ⊢
    by_cases hg : w.frameId ∈ w.groups
    · rw [if_pos hg]
      exact ⟨ho, hg⟩
    · rw [if_neg hg] at h ⊢
      simp only at h ⊢
      split
      · exact ⟨ho, by simp⟩
      · rename_i hs
        rw [if_neg hs] at h
        split
        · exact ⟨ho, by simp⟩
        · rename_i ps hp
          rw [hp] at h
          simp only at h
          split
          · exact ⟨ho, by simp⟩
          · rename_i cs hc
            rw [hc] at h
            cases h
  generalize (w.write c).1 = w' at h1
  induction later with
  | nil => simp [XWriter.writes]
  | cons c' cs ih =>
    have h2 : w'.write c' = (w', .error .valueError) := by
      unfold XWriter.write
      rw [if_neg (by simp [h1.1]), if_pos h1.2]
    intro b hb
    simp only [XWriter.writes, List.mem_cons, h2] at hb
    rcases hb with rfl | hb
    · rfl
    · exact ih b hb

/-- **C41.** Leaving writes the index exactly if every recorded shape of an accepted frame can be named in XDMF. -/
theorem C41_index_written_iff (w : XWriter T α) (frs : List (XFrame T)) (h : w.frames = some frs) :
    w.exit.2 = .ok () ↔ ∀ fr ∈ frs, ∀ r ∈ fr.points ++ fr.cells, ∃ td, attributeType r.2 = .ok td := by
  have mm : ∀ {β γ : Type} (f : β → Except PyErr γ) (l : List β), (∃ r, l.mapM f = .ok r) ↔ ∀ a ∈ l, ∃ b, f a = .ok b := by
    intro β γ f l
    constructor
    · rintro ⟨r, hr⟩ a ha
      obtain ⟨i, hi, rfl⟩ := List.getElem_of_mem ha
      have := mapM_forall₂ f l r hr
      exact ⟨_, this.get hi (by rw [← this.length_eq]; exact hi)⟩
    · intro hl
      induction l with
      | nil => exact ⟨[], rfl⟩
      | cons a l ih =>
        obtain ⟨b, hb⟩ := hl a (by simp)
        obtain ⟨bs, hbs⟩ := ih fun x hx => hl x (by simp [hx])
        exact ⟨b :: bs, by rw [List.mapM_cons, hb, hbs]; rfl⟩
  have fa : ∀ id c (recs : List (String × List ℕ)),
      (∃ as, frameAttrs id c recs = .ok as) ↔ ∀ r ∈ recs, ∃ td, attributeType r.2 = .ok td := by
    intro id c recs
    unfold frameAttrs
    rw [mm]
    refine forall₂_congr fun r _ => ?_
    constructor
    · rintro ⟨a, ha⟩
      cases hat : attributeType r.2 with
      | error e => rw [hat] at ha; cases ha
      | ok td => exact ⟨td, rfl⟩
    · rintro ⟨td, htd⟩
      exact ⟨_, by rw [htd]; rfl⟩
  have fg : ∀ fr : XFrame T, (∃ g, frameGrid fr = .ok g) ↔ ∀ r ∈ fr.points ++ fr.cells, ∃ td, attributeType r.2 = .ok td := by
    intro fr
    rw [List.forall_mem_append, ← fa fr.id .node, ← fa fr.id .cell]
    unfold frameGrid
    constructor
    · rintro ⟨g, hg⟩
      cases hp : frameAttrs fr.id .node fr.points with
      | error e => rw [hp] at hg; cases hg
      | ok ps =>
        rw [hp] at hg
        cases hc : frameAttrs fr.id .cell fr.cells with
        | error e => rw [hc] at hg; cases hg
        | ok cs => exact ⟨⟨ps, rfl⟩, ⟨cs, rfl⟩⟩
    · rintro ⟨⟨ps, hp⟩, ⟨cs, hc⟩⟩
      exact ⟨_, by rw [hp, hc]; rfl⟩
  rw [exit_eq w frs h]
  have h2 := mm frameGrid frs
  simp only [fg] at h2
  rw [← h2]
  cases frs.mapM (frameGrid (T := T)) with
  | error e => simp
  | ok gs => simp

/-- **C41 is false of the code**: a field with four components is accepted when written; leaving then raises, and no
index is written at all, so the valid first frame is lost too. -/
theorem C41_four_components_lose_index :
    ∃ (w0 : XWriter ℕ ℕ) (good bad : XCall ℕ ℕ),
      (⟨2, 1, false, [], [], none, 0, none, none⟩ : XWriter ℕ ℕ).enter = .ok w0 ∧
      (w0.writes [good, bad]).2 = [true, true] ∧ (w0.writes [good, bad]).1.exit.2 = .error .valueError ∧
      (w0.writes [good, bad]).1.exit.1.xml = none := by
  refine ⟨_, ⟨0, [⟨"u", [2, 3], 7⟩], []⟩, ⟨1, [⟨"u", [2, 4], 8⟩], []⟩, rfl, by decide, by decide, by decide⟩

/-- **C41.** A writer entered a second time still insists on the field names of its first use. -/
theorem C41_names_survive_reentry :
    ∃ (w0 w1 : XWriter ℕ ℕ) (a b : XCall ℕ ℕ),
      (⟨2, 1, false, [], [], none, 0, none, none⟩ : XWriter ℕ ℕ).enter = .ok w0 ∧ ValidFields 2 1 b ∧
      (w0.writes [a]).1.exit.1.enter = .ok w1 ∧ (w1.writes [b]).2 = [false] := by
  refine ⟨_, _, ⟨0, [⟨"u", [2, 3], 7⟩], []⟩, ⟨0, [⟨"v", [2, 3], 7⟩], []⟩, rfl, ?_, rfl, by decide⟩
  refine ⟨by simp, by simp, ?_, by simp⟩
  intro f hf
  rw [List.mem_singleton.1 hf]
  exact ⟨[2, 3], by decide⟩

/-- A session of two frames with a point tensor and a cell scalar. -/
example : ∃ w0 : XWriter ℕ ℕ, (⟨2, 1, false, [], [], none, 0, none, none⟩ : XWriter ℕ ℕ).enter = .ok w0 ∧
    (w0.writes [⟨0, [⟨"F", [2, 2, 2], 5⟩], [⟨"rho", [1], 6⟩]⟩, ⟨1, [⟨"F", [2, 2, 2], 7⟩], [⟨"rho", [1], 8⟩]⟩]).1.exit.1.xml
      = some [⟨0, [⟨"F", .node, "Tensor", [2, 9], (0, .node, "F")⟩, ⟨"rho", .cell, "Scalar", [1, 1], (0, .cell, "rho")⟩]⟩,
        ⟨1, [⟨"F", .node, "Tensor", [2, 9], (1, .node, "F")⟩, ⟨"rho", .cell, "Scalar", [1, 1], (1, .cell, "rho")⟩]⟩] := by
  refine ⟨_, rfl, by decide +kernel⟩

/-! ## C68: element type in output files -/

/-- Nodes per cell and space dimension of the meshes of an element type. -/
def elementShape : List (String × ℕ × ℕ) :=
  [("TRI3", 3, 2), ("TRI6", 6, 2), ("QUAD4", 4, 2), ("QUAD8", 8, 2), ("QUAD9", 9, 2), ("TET4", 4, 3), ("TET10", 10, 3),
    ("HEX8", 8, 3), ("HEX20", 20, 3), ("HEX27", 27, 3)]

/-- **C68 (partial).** For plane triangles and four-node quadrilaterals and for solid tetrahedra and hexahedra with 8 or
20 nodes the inferred output type is the mesh's own type. Missing: `C68_quad8_written_as_hexahedron` and the types
rejected below. -/
theorem C68_output_type_partial (ty : String) (n d : ℕ) (h : (ty, n, d) ∈ elementShape)
    (hno : ty ∉ ["QUAD8", "QUAD9", "HEX27"]) : inferElementType n d = .ok ty := by
  simp only [elementShape, List.mem_cons, Prod.mk.injEq, List.not_mem_nil, or_false] at h
  rcases h with ⟨rfl, rfl, rfl⟩ | ⟨rfl, rfl, rfl⟩ | ⟨rfl, rfl, rfl⟩ | ⟨rfl, rfl, rfl⟩ | ⟨rfl, rfl, rfl⟩ | ⟨rfl, rfl, rfl⟩ |
    ⟨rfl, rfl, rfl⟩ | ⟨rfl, rfl, rfl⟩ | ⟨rfl, rfl, rfl⟩ | ⟨rfl, rfl, rfl⟩ <;> first | rfl | simp at hno

/-- **C68 is false of the code**: a plane `QUAD8` mesh is written as hexahedra, a surface `QUAD4` mesh in space as
tetrahedra. -/
theorem C68_quad8_written_as_hexahedron :
    ("QUAD8", 8, 2) ∈ elementShape ∧ inferElementType 8 2 = .ok "HEX8" ∧ inferElementType 4 3 = .ok "TET4" := by
  refine ⟨by decide, rfl, rfl⟩

/-- **C68.** Meshes with any other number of nodes per cell are rejected, among them the supported `QUAD9`. -/
theorem C68_rejected (n d : ℕ) (h : n ∉ [3, 4, 6, 8, 10, 20]) : inferElementType n d = .error .valueError := by
  simp only [List.mem_cons, List.not_mem_nil, or_false, not_or] at h
  unfold inferElementType
  simp [h]

/-- **C41** (shapes). A field is accepted exactly if it has one entry per node (or cell) and is a scalar, a list of components or
a 2×2 or 3×3 tensor; 2×2 tensors are stored as 3×3. -/
theorem C41_accepted_shapes (n : ℕ) (shape s : List ℕ) :
    normalizeShape n shape = .ok s ↔
      (shape = [n] ∧ s = [n]) ∨ (∃ k, shape = [n, k] ∧ s = [n, k]) ∨ (shape = [n, 2, 2] ∧ s = [n, 3, 3]) ∨
        (shape = [n, 3, 3] ∧ s = [n, 3, 3]) := by
  unfold normalizeShape
  cases shape with
  | nil => simp
  | cons a rest =>
    by_cases ha : a = n
    · subst ha
      simp only [ne_eq, not_true_eq_false, if_false]
      split
      · rename_i h
        subst h
        grind
      · split
        · rename_i h1 h2
          simp only [reduceCtorEq, List.cons.injEq, true_and, false_iff, not_or, not_and, not_exists]
          refine ⟨fun h => ?_, fun k h => ?_, fun h => absurd h h1, fun h => absurd h h2.2⟩
          · rw [h] at h2
            simp at h2
          · rw [h] at h2
            simp at h2
        · rename_i h1 h2
          simp only [Except.ok.injEq, List.cons.injEq, true_and]
          have h3 : rest.length < 2 ∨ rest = [3, 3] := by
            by_contra hn
            push Not at hn
            exact h2 ⟨hn.1, hn.2⟩
          rcases h3 with h3 | h3
          · match rest, h3 with
            | [], _ => grind
            | [k], _ => grind
          · subst h3
            grind
    · simp only [ne_eq, ha, not_false_eq_true, if_true, reduceCtorEq, List.cons.injEq, false_and, exists_false, or_self]

/-- **C41** (XDMF attribute types). The type named in the index is determined by the number of components, and the dimensions
written are the number of entries and that number. -/
theorem C41_attribute_types (n : ℕ) (rest : List ℕ) (hr : rest = [] ∨ (∃ k, rest = [k]) ∨ rest = [3, 3]) (ty : String) (dims : List ℕ) :
    attributeType (n :: rest) = .ok (ty, dims) ↔ dims = [n, rest.prod] ∧
      (rest.prod = 1 ∧ ty = "Scalar" ∨ (rest.prod = 2 ∨ rest.prod = 3) ∧ ty = "Vector" ∨ rest.prod = 6 ∧ ty = "Tensor6" ∨
        rest.prod = 9 ∧ ty = "Tensor") := by
  rcases hr with rfl | ⟨k, rfl⟩ | rfl
  · simp [attributeType, eq_comm, and_comm]
  · simp only [attributeType, List.prod_cons, List.prod_nil, mul_one]
    split
    · rename_i h
      subst h
      simp [eq_comm, and_comm]
    · split
      · rename_i h1 h2
        rcases h2 with rfl | rfl <;> simp [eq_comm, and_comm]
      · split
        · rename_i h1 h2 h3
          subst h3
          simp [eq_comm, and_comm]
        · split
          · rename_i h1 h2 h3 h4
            subst h4
            simp [eq_comm, and_comm]
          · rename_i h1 h2 h3 h4
            simp only [reduceCtorEq, h1, h2, h3, h4, false_and, or_self, and_false]
  · simp [attributeType, eq_comm, and_comm]

example : attributeType [4, 6] = .ok ("Tensor6", [4, 6]) := (C41_attribute_types 4 [6] (by simp) _ _).2 (by simp)

end Verif.Props
