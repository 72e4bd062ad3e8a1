import Verif.Model.SaveSol
import Mathlib.Data.List.Basic
import Mathlib.Algebra.BigOperators.Group.List.Basic
import Mathlib.Tactic.Ring

/-!
# What `save_sol` writes (C145)
-/

namespace Verif.Props
open Verif.Model

variable {α β : Type}

/-! ## Specification -/

namespace Spec

/-- An array with `n` rows: the values fill the shape. -/
def Rows (n : ℕ) (a : NpArr α) : Prop := a.data.length = a.shape.prod ∧ a.shape.head? = some n

/-- Per-cell data `save_sol` documents: scalars `(n,)`, vectors `(n, m)`, tensors `(n, a, b)`. -/
def CellField (n : ℕ) (a : NpArr α) : Prop := Rows n a ∧ a.shape.length ≤ 3

/-- Per-point data: any array with a row per node. -/
def PointField (n : ℕ) (a : NpArr α) : Prop := Rows n a

/-- `out` holds the rows of `a`, converted: as many rows, the same values in the same rows. -/
def SameRows (conv : α → β) (n : ℕ) (a : NpArr α) (out : NpArr β) : Prop :=
  Rows n out ∧ out.data.length = a.data.length ∧ ∀ (k c w : ℕ) (x : α), w * n = a.data.length → c < w → a.data[k * w + c]? = some x →
    out.data[k * w + c]? = some (conv x)

end Spec

/-! ## Proofs -/

theorem prepareCell_ok (conv : α → β) (n : ℕ) (hn : 0 < n) (a : NpArr α) (h : Spec.CellField n a) :
    ∃ out, prepareCell conv n a = .ok out ∧ out.data = a.data.map conv ∧ out.shape = [n, a.shape.tail.prod] := by
  obtain ⟨⟨_, h2⟩, h3⟩ := h
  unfold prepareCell
  match hs : a.shape with
  | [] => rw [hs] at h2; cases h2
  | m :: rest =>
    rw [hs] at h2 h3
    cases h2
    simp only [List.length_cons] at h3
    match rest, h3 with
    | [], _ => exact ⟨⟨[n, 1], a.data.map conv⟩, by simp, rfl, by simp⟩
    | [x], _ => exact ⟨⟨[n, x], a.data.map conv⟩, by simp, rfl, by simp⟩
    | [x, y], _ => exact ⟨⟨[n, x * y], a.data.map conv⟩, by simp [hn.ne'], rfl, by simp⟩
    | _ :: _ :: _ :: _, h => simp at h

theorem preparePoint_ok (conv : α → β) (n : ℕ) (a : NpArr α) (h : Spec.PointField n a) :
    preparePoint conv n a = .ok ⟨a.shape, a.data.map conv⟩ := by
  obtain ⟨_, h2⟩ := h
  unfold preparePoint
  match hs : a.shape with
  | [] => rw [hs] at h2; cases h2
  | m :: rest => rw [hs] at h2; cases h2; simp

theorem prepareAll_ok (prep : NpArr α → Except PyErr (NpArr β)) (g : NpArr α → NpArr β) (fs : List (String × NpArr α))
    (hp : ∀ f ∈ fs, prep f.2 = .ok (g f.2)) : ∀ d : List (String × NpArr β), (fs.map (·.1)).Nodup →
      (∀ f ∈ fs, ∀ p ∈ d, p.1 ≠ f.1) → prepareAll prep fs d = .ok (d ++ fs.map fun f => (f.1, g f.2)) := by
  induction fs with
  | nil => intro d _ _; simp [prepareAll]
  | cons f fs ih =>
    intro d hnd hd
    rw [prepareAll, hp f List.mem_cons_self]
    simp only
    have hset : fieldSet d f.1 (g f.2) = d ++ [(f.1, g f.2)] := by
      unfold fieldSet
      rw [if_neg]
      rw [List.any_eq_true]
      rintro ⟨p, hpm, hpe⟩
      exact hd f List.mem_cons_self p hpm (by simpa using hpe)
    rw [List.map_cons, List.nodup_cons] at hnd
    rw [hset, ih (fun e he => hp e (List.mem_cons_of_mem _ he)) _ hnd.2]
    · simp
    · intro e he p hpm
      rcases List.mem_append.mp hpm with h | h
      · exact hd e (List.mem_cons_of_mem _ he) p h
      · rw [List.mem_singleton.mp h]
        intro h
        exact hnd.1 (by rw [show f.1 = e.1 from h]; exact List.mem_map_of_mem he)

theorem sameRows_map (conv : α → β) (n : ℕ) (a : NpArr α) (out : NpArr β) (hd : out.data = a.data.map conv)
    (hr : Spec.Rows n out) : Spec.SameRows conv n a out := by
  refine ⟨hr, by rw [hd, List.length_map], fun k c w x _ _ hx => ?_⟩
  rw [hd, List.getElem?_map, hx]
  rfl

/-- What the loop over cells or points writes for admissible fields. -/
theorem prepareOpt_ok (prep : NpArr α → Except PyErr (NpArr β)) (good : NpArr α → Prop) (conv : α → β) (n : ℕ)
    (hg : ∀ a, good a → ∃ out, prep a = .ok out ∧ Spec.SameRows conv n a out) (fs : Option (List (String × NpArr α)))
    (hgood : ∀ f ∈ fs.getD [], good f.2) (hnd : ((fs.getD []).map (·.1)).Nodup) :
    ∃ d, prepareOpt prep fs = .ok d ∧ d.map (·.1) = (fs.getD []).map (·.1) ∧
      ∀ f ∈ fs.getD [], ∃ out, (f.1, out) ∈ d ∧ Spec.SameRows conv n f.2 out := by
  cases fs with
  | none => exact ⟨[], rfl, rfl, by simp⟩
  | some fs =>
    simp only [Option.getD_some] at hgood hnd ⊢
    classical
    let g : NpArr α → NpArr β := fun a => if h : good a then (hg a h).choose else ⟨[], []⟩
    have hgs : ∀ f ∈ fs, prep f.2 = .ok (g f.2) ∧ Spec.SameRows conv n f.2 (g f.2) := by
      intro f hf
      have hc := (hg f.2 (hgood f hf)).choose_spec
      simp only [g, dif_pos (hgood f hf)]
      exact hc
    refine ⟨_, prepareAll_ok prep g fs (fun f hf => (hgs f hf).1) [] hnd (by simp), by simp, fun f hf => ⟨g f.2, ?_, (hgs f hf).2⟩⟩
    rw [List.nil_append]
    exact List.mem_map_of_mem (f := fun f : String × NpArr α => (f.1, g f.2)) hf

/-- C145 (partial): with admissible fields of different names, on a mesh with cells of a type that can be written, `save_sol` writes
exactly the fields given, in order, each under its name, the rows of each field in the rows of the mesh's cells or nodes. Missing:
repeated names (`C145_repeated_name_lost`). -/
theorem C145_written_partial (conv : α → β) (hasDir : Bool) (nodesPerCell dim nPoints nCells : ℕ) (ele : String)
    (hele : inferElementType nodesPerCell dim = .ok ele) (hn : 0 < nCells) (cells points : Option (List (String × NpArr α)))
    (hany : cells.isSome ∨ points.isSome) (hc : ∀ f ∈ cells.getD [], Spec.CellField nCells f.2)
    (hp : ∀ f ∈ points.getD [], Spec.PointField nPoints f.2) (hcn : ((cells.getD []).map (·.1)).Nodup)
    (hpn : ((points.getD []).map (·.1)).Nodup) :
    ∃ file, (saveSol conv hasDir nodesPerCell dim nPoints nCells cells points).2 = .ok file ∧ meshioCellType ele = .ok file.cellType ∧
      file.cellData.map (·.1) = (cells.getD []).map (·.1) ∧ file.pointData.map (·.1) = (points.getD []).map (·.1) ∧
      (∀ f ∈ cells.getD [], ∃ out, (f.1, out) ∈ file.cellData ∧ Spec.SameRows conv nCells f.2 out) ∧
      ∀ f ∈ points.getD [], ∃ out, (f.1, out) ∈ file.pointData ∧ Spec.SameRows conv nPoints f.2 out := by
  obtain ⟨cd, h1, h2, h3⟩ := prepareOpt_ok (prepareCell conv nCells) (Spec.CellField nCells) conv nCells (fun a ha => by
    obtain ⟨out, e1, e2, e3⟩ := prepareCell_ok conv nCells hn a ha
    refine ⟨out, e1, sameRows_map conv nCells a out e2 ⟨?_, by rw [e3]; rfl⟩⟩
    rw [e2, List.length_map, ha.1.1, e3]
    match hs : a.shape with
    | [] => have := ha.1.2; rw [hs] at this; cases this
    | m :: rest =>
      have := ha.1.2; rw [hs] at this; cases this
      simp) cells hc hcn
  obtain ⟨pd, h4, h5, h6⟩ := prepareOpt_ok (preparePoint conv nPoints) (Spec.PointField nPoints) conv nPoints (fun a ha =>
    ⟨_, preparePoint_ok conv nPoints a ha, sameRows_map conv nPoints a _ rfl ⟨by rw [List.length_map]; exact ha.1, ha.2⟩⟩) points hp hpn
  have hct : ∃ ct, meshioCellType ele = .ok ct := by
    unfold inferElementType at hele
    split_ifs at hele <;> cases hele <;> exact ⟨_, rfl⟩
  obtain ⟨ct, hct⟩ := hct
  refine ⟨⟨ct, cd, pd⟩, ?_, hct, h2, h5, h3, h6⟩
  unfold saveSol
  rw [if_neg (by rcases hany with h | h <;> simp [Option.isSome_iff_ne_none] at h <;> simp [h]), hele]
  simp only [hct, h1, h4]
  rfl

/-- C145: a field with a wrong number of rows is refused, whatever the other fields are, and so is a call without fields. -/
theorem C145_refused (conv : α → β) (hasDir : Bool) (nodesPerCell dim nPoints nCells : ℕ) (cells points : Option (List (String × NpArr α)))
    (h : (cells = none ∧ points = none) ∨ (∃ f ∈ cells.getD [], f.2.shape.head? ≠ some nCells) ∨
      ∃ f ∈ points.getD [], f.2.shape.head? ≠ some nPoints) :
    ∃ e, (saveSol conv hasDir nodesPerCell dim nPoints nCells cells points).2 = .error e := by
  have key : ∀ (prep : NpArr α → Except PyErr (NpArr β)) (fs : List (String × NpArr α)), (∃ f ∈ fs, ∃ e, prep f.2 = .error e) →
      ∀ d, ∃ e, prepareAll prep fs d = .error e := by
    intro prep fs
    induction fs with
    | nil => rintro ⟨f, hf, _⟩; cases hf
    | cons f fs ih =>
      rintro ⟨g, hg, e, he⟩ d
      rw [prepareAll]
      cases hp : prep f.2 with
      | error e => exact ⟨e, rfl⟩
      | ok a =>
        refine ih ⟨g, ?_, e, he⟩ _
        rcases List.mem_cons.mp hg with rfl | hg
        · rw [he] at hp; cases hp
        · exact hg
  have hcell : ∀ a : NpArr α, a.shape.head? ≠ some nCells → ∃ e, prepareCell conv nCells a = .error e := by
    intro a ha
    unfold prepareCell
    match hs : a.shape with
    | [] => exact ⟨_, rfl⟩
    | m :: rest =>
      rw [hs] at ha
      exact ⟨_, if_pos fun hm => ha (by rw [hm]; rfl)⟩
  have hpoint : ∀ a : NpArr α, a.shape.head? ≠ some nPoints → ∃ e, preparePoint conv nPoints a = .error e := by
    intro a ha
    unfold preparePoint
    match hs : a.shape with
    | [] => exact ⟨_, rfl⟩
    | m :: rest =>
      rw [hs] at ha
      exact ⟨_, if_pos fun hm => ha (by rw [hm]; rfl)⟩
  unfold saveSol
  rcases h with ⟨rfl, rfl⟩ | h | h
  · exact ⟨_, rfl⟩
  all_goals
    split_ifs
    · exact ⟨_, rfl⟩
    cases inferElementType nodesPerCell dim with
    | error e => exact ⟨e, rfl⟩
    | ok ele =>
      simp only
      cases meshioCellType ele with
      | error e => exact ⟨e, rfl⟩
      | ok ct =>
        simp only
        obtain ⟨f, hf, hne⟩ := h
        first
        | (cases cells with
          | none => cases hf
          | some fs =>
            obtain ⟨e, he⟩ := key (prepareCell conv nCells) fs ⟨f, hf, hcell _ hne⟩ []
            exact ⟨e, by simp [prepareOpt, he, bind, Except.bind]⟩)
        | (cases points with
          | none => cases hf
          | some fs =>
            obtain ⟨e, he⟩ := key (preparePoint conv nPoints) fs ⟨f, hf, hpoint _ hne⟩ []
            cases hcs : prepareOpt (prepareCell conv nCells) cells with
            | error e' => exact ⟨e', by simp [bind, Except.bind]⟩
            | ok d => exact ⟨e, by simp [prepareOpt, he, bind, Except.bind]⟩)

/-- A triangle mesh of two cells and four nodes with a stress tensor per cell and a displacement per node. -/
example : ∃ file, (saveSol (fun x : ℚ => x) true 3 2 4 2 (some [("sigma", ⟨[2, 2, 2], [1, 2, 3, 4, 5, 6, 7, 8]⟩)])
    (some [("u", ⟨[4, 2], [0, 0, 1, 0, 0, 1, 1, 1]⟩)])).2 = .ok file ∧ file.cellType = "triangle" := by
  obtain ⟨file, h1, h2, _⟩ := C145_written_partial (fun x : ℚ => x) true 3 2 4 2 "TRI3" rfl (by norm_num)
    (some [("sigma", ⟨[2, 2, 2], [1, 2, 3, 4, 5, 6, 7, 8]⟩)]) (some [("u", ⟨[4, 2], [0, 0, 1, 0, 0, 1, 1, 1]⟩)]) (Or.inl rfl)
    (by rintro f hf; rw [List.mem_singleton.mp hf]; exact ⟨⟨rfl, rfl⟩, by decide⟩)
    (by rintro f hf; rw [List.mem_singleton.mp hf]; exact ⟨rfl, rfl⟩) (by simp) (by simp)
  refine ⟨file, h1, ?_⟩
  have : meshioCellType "TRI3" = .ok "triangle" := by decide
  rw [this] at h2
  exact (Except.ok.inj h2).symm

/-- C145 fails for repeated names: of two fields with one name only the second is written, without error. -/
theorem C145_repeated_name_lost (conv : α → β) (hasDir : Bool) (a b : NpArr α) (m n : ℕ) (ha : Spec.PointField m a) (hb : Spec.PointField m b) :
    ((saveSol conv hasDir 3 2 m n none (some [("u", a), ("u", b)])).2.map fun f => f.pointData) = .ok [("u", ⟨b.shape, b.data.map conv⟩)] := by
  have h1 := preparePoint_ok conv m a ha
  have h2 := preparePoint_ok conv m b hb
  simp [saveSol, inferElementType, meshioCellType, prepareOpt, prepareAll, h1, h2, fieldSet, bind, Except.bind, pure, Except.pure, Except.map]

/-- C145: a refused call may leave the directory of the file behind, created before the fields are looked at. -/
theorem C145_directory_left_behind : ∃ (points : List (String × NpArr ℕ)) (e : PyErr),
    saveSol (fun x : ℕ => x) true 3 2 4 2 none (some points) = (true, .error e) :=
  ⟨[("u", ⟨[3], [1, 2, 3]⟩)], .valueError, rfl⟩

/-- C145 fails for the cell type: the cells of a two-dimensional mesh with eight nodes per cell, quadrilaterals, are written as
hexahedra, and those of a surface mesh of quadrilaterals in space as tetrahedra. -/
theorem C145_cell_type_guessed (conv : α → β) (hasDir : Bool) (a : NpArr α) (m n : ℕ) (ha : Spec.PointField m a) :
    ((saveSol conv hasDir 8 2 m n none (some [("u", a)])).2.map fun f => f.cellType) = meshioCellType "HEX8" ∧
    ((saveSol conv hasDir 4 3 m n none (some [("u", a)])).2.map fun f => f.cellType) = meshioCellType "TET4" ∧
    meshioCellType "HEX8" ≠ meshioCellType "QUAD8" ∧ meshioCellType "TET4" ≠ meshioCellType "QUAD4" := by
  have h1 := preparePoint_ok conv m a ha
  refine ⟨?_, ?_, by decide, by decide⟩ <;>
    simp [saveSol, inferElementType, meshioCellType, prepareOpt, prepareAll, h1, fieldSet, bind, Except.bind, pure, Except.pure, Except.map]

/-- C145: called without any field, or for cells of an unknown kind, `save_sol` says so and touches nothing: not even the directory
of the file is created. -/
theorem C145_refused_untouched (conv : α → β) (hasDir : Bool) (nodesPerCell dim nPoints nCells : ℕ)
    (cells points : Option (List (String × NpArr α))) :
    saveSol conv hasDir nodesPerCell dim nPoints nCells none none = (false, .error .valueError) ∧
    ∀ e, inferElementType nodesPerCell dim = .error e →
      (saveSol conv hasDir nodesPerCell dim nPoints nCells cells points).1 = false ∧
      ∃ e', (saveSol conv hasDir nodesPerCell dim nPoints nCells cells points).2 = .error e' := by
  refine ⟨rfl, fun e he => ?_⟩
  unfold saveSol
  split
  · exact ⟨rfl, _, rfl⟩
  · rw [he]
    exact ⟨rfl, _, rfl⟩

/-- The names meshio gives to the cells feax knows. -/
def Spec.meshioNames : List (String × String) :=
  [("TET4", "tetra"), ("TET10", "tetra10"), ("HEX8", "hexahedron"), ("HEX20", "hexahedron20"), ("HEX27", "hexahedron27"),
    ("TRI3", "triangle"), ("TRI6", "triangle6"), ("QUAD4", "quad"), ("QUAD8", "quad8"), ("QUAD9", "quad9")]

/-- C145: an element is written under the name meshio has for it, and one that meshio has no name for is refused. -/
theorem C145_cell_names (e : String) :
    (∀ name, meshioCellType e = .ok name ↔ (e, name) ∈ Spec.meshioNames) ∧
    ((∀ name, (e, name) ∉ Spec.meshioNames) → meshioCellType e = .error .notImplemented) := by
  unfold meshioCellType Spec.meshioNames
  constructor
  · intro name
    simp only [List.mem_cons, Prod.mk.injEq, List.not_mem_nil, or_false]
    split_ifs <;> simp_all [eq_comm]
  · intro h
    have : ∀ a ∈ Spec.meshioNames, e ≠ a.1 := fun a ha hea => h a.2 (by rw [hea]; exact ha)
    simp [Spec.meshioNames] at this
    simp [this]

end Verif.Props
