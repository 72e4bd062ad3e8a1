import Verif.Model.Shell
import Verif.Props.Averaged
import Mathlib.Analysis.SpecialFunctions.Integrals.Basic

/-!
# C93: laminate stiffnesses and thermal resultants are integrals through the thickness
-/

namespace Verif.Props

open Verif.Model

/-- A ply: in-plane stiffness, transverse shear stiffness (or expansion), angle and thickness. -/
structure Ply where
  C : Arr4 ℝ 2
  G : Arr2 ℝ 2
  theta : ℝ
  t : ℝ

/-- The stiffness of a ply in laminate axes. -/
noncomputable def Ply.Q (p : Ply) : Arr4 ℝ 2 := rotateInPlane p.C p.theta

/-- Total thickness. -/
def thickness (ps : List Ply) : ℝ := (ps.map Ply.t).sum

/-- The value at height `z` of a quantity given ply by ply, in a stack that starts at `z0`. -/
noncomputable def through (f : Ply → ℝ → ℝ) : ℝ → List Ply → ℝ → ℝ
  | _, [], _ => 0
  | z0, p :: ps, z => if z ≤ z0 + p.t then f p z else through f (z0 + p.t) ps z

/-- Integral over the thickness of a laminate centred at its midplane. -/
noncomputable def thicknessIntegral (f : Ply → ℝ → ℝ) (ps : List Ply) : ℝ :=
  ∫ z in (-(thickness ps / 2))..(thickness ps / 2), through f (-(thickness ps / 2)) ps z

/-- Sum over the plies, with lower and upper face. -/
def plySum (F : Ply → ℝ → ℝ → ℝ) : ℝ → List Ply → ℝ
  | _, [] => 0
  | z, p :: ps => F p z (z + p.t) + plySum F (z + p.t) ps

theorem thickness_cons (p : Ply) (ps : List Ply) : thickness (p :: ps) = p.t + thickness ps := by simp [thickness]

theorem thickness_nonneg {ps : List Ply} (h : ∀ p ∈ ps, 0 ≤ p.t) : 0 ≤ thickness ps := by
  apply List.sum_nonneg
  intro x hx
  obtain ⟨p, hp, rfl⟩ := List.mem_map.mp hx
  exact h p hp

theorem integral_through (f : Ply → ℝ → ℝ) (hf : ∀ p, Continuous (f p)) (ps : List Ply) (h : ∀ p ∈ ps, 0 ≤ p.t) (z0 : ℝ) :
    IntervalIntegrable (through f z0 ps) MeasureTheory.volume z0 (z0 + thickness ps) ∧
    ∫ z in z0..(z0 + thickness ps), through f z0 ps z = plySum (fun p a b => ∫ z in a..b, f p z) z0 ps := by
  induction ps generalizing z0 with
  | nil =>
    constructor
    · simp [thickness]
    · simp [thickness, plySum]
  | cons p ps ih =>
    have hp : 0 ≤ p.t := h p List.mem_cons_self
    have hps : ∀ q ∈ ps, 0 ≤ q.t := fun q hq => h q (List.mem_cons_of_mem _ hq)
    have hT := thickness_nonneg hps
    obtain ⟨hi, he⟩ := ih hps (z0 + p.t)
    rw [thickness_cons, ← add_assoc]
    have e1 : ∀ z ∈ Set.uIoc z0 (z0 + p.t), f p z = through f z0 (p :: ps) z := by
      intro z hz
      rw [Set.uIoc_of_le (by linarith)] at hz
      rw [through, if_pos hz.2]
    have e2 : ∀ z ∈ Set.uIoc (z0 + p.t) (z0 + p.t + thickness ps), through f (z0 + p.t) ps z = through f z0 (p :: ps) z := by
      intro z hz
      rw [Set.uIoc_of_le (by linarith)] at hz
      rw [through, if_neg (not_le.mpr hz.1)]
    have i1 : IntervalIntegrable (through f z0 (p :: ps)) MeasureTheory.volume z0 (z0 + p.t) :=
      ((hf p).intervalIntegrable z0 (z0 + p.t)).congr e1
    have i2 : IntervalIntegrable (through f z0 (p :: ps)) MeasureTheory.volume (z0 + p.t) (z0 + p.t + thickness ps) :=
      hi.congr e2
    refine ⟨i1.trans i2, ?_⟩
    rw [← intervalIntegral.integral_add_adjacent_intervals i1 i2, plySum, ← he]
    congr 1
    · exact (intervalIntegral.integral_congr_ae (Filter.Eventually.of_forall fun z hz => e1 z hz)).symm
    · exact (intervalIntegral.integral_congr_ae (Filter.Eventually.of_forall fun z hz => e2 z hz)).symm

theorem thicknessIntegral_eq (f : Ply → ℝ → ℝ) (hf : ∀ p, Continuous (f p)) (ps : List Ply) (h : ∀ p ∈ ps, 0 ≤ p.t) :
    thicknessIntegral f ps = plySum (fun p a b => ∫ z in a..b, f p z) (-(thickness ps / 2)) ps := by
  have := (integral_through f hf ps h (-(thickness ps / 2))).2
  rw [thicknessIntegral, ← this]
  congr 1
  ring

/-! ### The rows of the code -/

theorem runningSum_map (c s : ℝ) (ts : List ℝ) : (runningSum s ts).map (fun x => c + x) = runningSum (c + s) ts := by
  induction ts generalizing s with
  | nil => rfl
  | cons t ts ih => simp [runningSum, ih, add_assoc]

/-- The lower faces. -/
def lowerFaces (z : ℝ) : List ℝ → List ℝ
  | [] => []
  | t :: ts => z :: lowerFaces (z + t) ts

theorem dropLast_faces (z : ℝ) (ts : List ℝ) : (z :: runningSum z ts).dropLast = lowerFaces z ts := by
  induction ts generalizing z with
  | nil => rfl
  | cons t ts ih =>
    rw [lowerFaces, ← ih (z + t)]
    rfl

theorem faces_eq (ts : List ℝ) :
    zLayers ts = -(ts.sum / 2) :: runningSum (-(ts.sum / 2)) ts := by
  rw [zLayers]
  simp only [neg_div]
  rw [runningSum_map, add_zero]

theorem runningSum_length (s : ℝ) (ts : List ℝ) : (runningSum s ts).length = ts.length := by
  induction ts generalizing s with
  | nil => rfl
  | cons t ts ih => simp [runningSum, ih]

theorem lowerFaces_length (s : ℝ) (ts : List ℝ) : (lowerFaces s ts).length = ts.length := by
  induction ts generalizing s with
  | nil => rfl
  | cons t ts ih => simp [lowerFaces, ih]

/-- The plies with their faces. -/
def stackRows : ℝ → List Ply → List (LayerRow (Arr4 ℝ 2) (Arr2 ℝ 2))
  | _, [] => []
  | z, p :: ps => ⟨p.C, p.G, p.theta, z, z + p.t⟩ :: stackRows (z + p.t) ps

theorem layerRows_eq (ps : List Ply) :
    layerRows (ps.map Ply.C) (ps.map Ply.G) (ps.map Ply.theta) (ps.map Ply.t) = .ok (stackRows (-(thickness ps / 2)) ps) := by
  have key : ∀ (ps : List Ply) (z : ℝ), ((ps.map Ply.C).zip ((ps.map Ply.G).zip ((ps.map Ply.theta).zip
      ((lowerFaces z (ps.map Ply.t)).zip (runningSum z (ps.map Ply.t)))))).map
        (fun r => (⟨r.1, r.2.1, r.2.2.1, r.2.2.2.1, r.2.2.2.2⟩ : LayerRow (Arr4 ℝ 2) (Arr2 ℝ 2))) = stackRows z ps := by
    intro ps
    induction ps with
    | nil => intro z; rfl
    | cons p ps ih => intro z; simp only [List.map_cons, lowerFaces, runningSum, List.zip_cons_cons, stackRows, ih]
  simp only [layerRows, faces_eq, List.drop_succ_cons, List.drop_zero, dropLast_faces, lowerFaces_length, List.length_map,
    and_self, if_true]
  rw [key]
  rfl

theorem stackRows_sum (F : Arr4 ℝ 2 → Arr2 ℝ 2 → ℝ → ℝ → ℝ → ℝ) (z : ℝ) (ps : List Ply) :
    ((stackRows z ps).map fun r => F r.C r.G r.theta r.lo r.hi).sum = plySum (fun p a b => F p.C p.G p.theta a b) z ps := by
  induction ps generalizing z with
  | nil => rfl
  | cons p ps ih => rw [stackRows, List.map_cons, List.sum_cons, ih, plySum]

/-- The laminate that the code computes, as sums over plies. -/
theorem laminate_eq (ps : List Ply) (kappa : ℝ) :
    ∃ L, laminateStiffness (.each (ps.map Ply.C)) (.each (ps.map Ply.G)) (ps.map Ply.theta) (ps.map Ply.t) kappa = .ok L ∧
      (∀ i j k l, L.A i j k l = plySum (fun p a b => p.Q i j k l * (b - a)) (-(thickness ps / 2)) ps) ∧
      (∀ i j k l, L.B i j k l = plySum (fun p a b => 1 / 2 * p.Q i j k l * (b ^ 2 - a ^ 2)) (-(thickness ps / 2)) ps) ∧
      (∀ i j k l, L.D i j k l = plySum (fun p a b => 1 / 3 * p.Q i j k l * (b ^ 3 - a ^ 3)) (-(thickness ps / 2)) ps) ∧
      ∀ i j, L.Gs i j = kappa * plySum (fun p a b => rotateInPlane2 p.G p.theta i j * (b - a)) (-(thickness ps / 2)) ps := by
  have hrun : laminateStiffness (.each (ps.map Ply.C)) (.each (ps.map Ply.G)) (ps.map Ply.theta) (ps.map Ply.t) kappa
      = .ok (let ks := (stackRows (-(thickness ps / 2)) ps).map fun r => layerStiffness r.C r.G r.theta r.lo r.hi
        ⟨fun i j k l => (ks.map fun x => x.1 i j k l).sum, fun i j k l => (ks.map fun x => x.2.1 i j k l).sum,
          fun i j k l => (ks.map fun x => x.2.2.1 i j k l).sum, fun i j => kappa * (ks.map fun x => x.2.2.2 i j).sum⟩) := by
    unfold laminateStiffness
    simp only [List.length_map, ne_eq, not_true_eq_false, if_false, PerLayer.rows, layerRows_eq]
    rfl
  refine ⟨_, hrun, ?_⟩
  · simp only [List.map_map, Function.comp_def, layerStiffness]
    refine ⟨fun i j k l => ?_, fun i j k l => ?_, fun i j k l => ?_, fun i j => ?_⟩
    · exact stackRows_sum (fun C _ th a b => rotateInPlane C th i j k l * (b - a)) _ _
    · exact stackRows_sum (fun C _ th a b => 1 / 2 * rotateInPlane C th i j k l * (b ^ 2 - a ^ 2)) _ _
    · exact stackRows_sum (fun C _ th a b => 1 / 3 * rotateInPlane C th i j k l * (b ^ 3 - a ^ 3)) _ _
    · rw [stackRows_sum (fun _ G th a b => rotateInPlane2 G th i j * (b - a)) _ _]

theorem plySum_congr {F G : Ply → ℝ → ℝ → ℝ} {ps : List Ply} (h : ∀ p ∈ ps, ∀ a b, F p a b = G p a b) (z : ℝ) :
    plySum F z ps = plySum G z ps := by
  induction ps generalizing z with
  | nil => rfl
  | cons p ps ih =>
    rw [plySum, plySum, h p List.mem_cons_self, ih fun q hq => h q (List.mem_cons_of_mem _ hq)]

/-- **C93.** The stiffnesses of a laminate are the integrals of the ply stiffness in laminate axes through the thickness, weighted by 1, `z`
and `z²`; the transverse shear stiffness is the integral of the turned shear stiffness times the correction factor. -/
theorem C93_laminate (ps : List Ply) (ht : ∀ p ∈ ps, 0 ≤ p.t) (kappa : ℝ) :
    ∃ L, laminateStiffness (.each (ps.map Ply.C)) (.each (ps.map Ply.G)) (ps.map Ply.theta) (ps.map Ply.t) kappa = .ok L ∧
      (∀ i j k l, L.A i j k l = thicknessIntegral (fun p _ => p.Q i j k l) ps) ∧
      (∀ i j k l, L.B i j k l = thicknessIntegral (fun p z => z * p.Q i j k l) ps) ∧
      (∀ i j k l, L.D i j k l = thicknessIntegral (fun p z => z ^ 2 * p.Q i j k l) ps) ∧
      ∀ i j, L.Gs i j = kappa * thicknessIntegral (fun p _ => rotateInPlane2 p.G p.theta i j) ps := by
  obtain ⟨L, hL, hA, hB, hD, hG⟩ := laminate_eq ps kappa
  refine ⟨L, hL, fun i j k l => ?_, fun i j k l => ?_, fun i j k l => ?_, fun i j => ?_⟩
  · rw [hA, thicknessIntegral_eq _ (fun p => continuous_const) ps ht]
    apply plySum_congr
    intro p _ a b
    rw [intervalIntegral.integral_const, smul_eq_mul]
    ring
  · rw [hB, thicknessIntegral_eq _ (fun p => by fun_prop) ps ht]
    apply plySum_congr
    intro p _ a b
    rw [intervalIntegral.integral_mul_const, integral_id]
    ring
  · rw [hD, thicknessIntegral_eq _ (fun p => by fun_prop) ps ht]
    apply plySum_congr
    intro p _ a b
    rw [intervalIntegral.integral_mul_const]
    simp only [id_eq, integral_pow]
    push_cast
    ring
  · rw [hG, thicknessIntegral_eq _ (fun p => continuous_const) ps ht]
    congr 1
    apply plySum_congr
    intro p _ a b
    rw [intervalIntegral.integral_const, smul_eq_mul]
    ring

/-- Three different plies. -/
noncomputable def exPlies : List Ply :=
  [⟨orthotropicInPlane 130 10 5 (3 / 10), eye ℝ 2, 0, 1⟩, ⟨orthotropicInPlane 70 70 5 (1 / 20), eye ℝ 2, 1, 2⟩,
    ⟨orthotropicInPlane 130 10 5 (3 / 10), eye ℝ 2, -1, 1 / 2⟩]

theorem exPlies_ok : ∀ p ∈ exPlies, 0 ≤ p.t := by
  intro p hp
  simp only [exPlies, List.mem_cons, List.not_mem_nil, or_false] at hp
  rcases hp with rfl | rfl | rfl <;> norm_num

/-- **C93.** One material for all plies is the same as that material repeated; different numbers of angles, thicknesses or materials are
refused. -/
theorem C93_layup_arguments (C : Arr4 ℝ 2) (G : Arr2 ℝ 2) (thetas ts : List ℝ) (kappa dT grad : ℝ) :
    laminateStiffness (.one C) (.one G) thetas ts kappa
      = laminateStiffness (.each (List.replicate thetas.length C)) (.each (List.replicate thetas.length G)) thetas ts kappa ∧
    laminateThermalLoads (.one C) (.one G) thetas ts dT grad
      = laminateThermalLoads (.each (List.replicate thetas.length C)) (.each (List.replicate thetas.length G)) thetas ts dT grad ∧
    (∀ Cs Gs, ts.length ≠ thetas.length → laminateStiffness Cs Gs thetas ts kappa = .error .valueError ∧
      laminateThermalLoads Cs Gs thetas ts dT grad = .error .valueError) ∧
    (∀ (Cs : List (Arr4 ℝ 2)) Gs, Cs.length ≠ thetas.length → laminateStiffness (.each Cs) Gs thetas ts kappa = .error .valueError ∧
      laminateThermalLoads (.each Cs) Gs thetas ts dT grad = .error .valueError) := by
  refine ⟨rfl, rfl, ?_, ?_⟩
  · intro Cs Gs h
    unfold laminateStiffness laminateThermalLoads
    constructor <;> simp only [ne_eq, h, not_false_eq_true, if_true] <;> rfl
  · intro Cs Gs h
    unfold laminateStiffness laminateThermalLoads
    by_cases hl : ts.length = thetas.length
    · constructor <;> simp only [ne_eq, hl, not_true_eq_false, if_false, layerRows, PerLayer.rows, h, false_and] <;> rfl
    · constructor <;> simp only [ne_eq, hl, not_false_eq_true, if_true] <;> rfl

/-- **C93.** The face coordinates run from `-h/2` to `h/2` in steps of the thicknesses. -/
theorem C93_faces (ts : List ℝ) :
    (zLayers ts).length = ts.length + 1 ∧ (zLayers ts).head? = some (-(ts.sum / 2)) ∧
    (zLayers ts).getLast? = some (ts.sum / 2) ∧
    ∀ k (hk : k < ts.length), (zLayers ts).getD (k + 1) 0 - (zLayers ts).getD k 0 = ts.getD k 0 := by
  rw [faces_eq]
  have hlast : ∀ (ts : List ℝ) (z : ℝ), (z :: runningSum z ts).getLast? = some (z + ts.sum) := by
    intro ts
    induction ts with
    | nil => intro z; simp [runningSum]
    | cons t ts ih =>
      intro z
      rw [runningSum, List.getLast?_cons_cons, ih, List.sum_cons, add_assoc]
  refine ⟨by simp [runningSum_length], rfl, ?_, ?_⟩
  · rw [hlast]
    congr 1
    ring
  · generalize -(ts.sum / 2) = z
    induction ts generalizing z with
    | nil => intro k hk; simp at hk
    | cons t ts ih =>
      intro k hk
      cases k with
      | zero => simp [runningSum]
      | succ k =>
        have := ih (z + t) k (by simpa using hk)
        simpa [runningSum] using this

/-! ### Turning a laminate over -/

theorem plySum_append (F : Ply → ℝ → ℝ → ℝ) (ps qs : List Ply) (z : ℝ) :
    plySum F z (ps ++ qs) = plySum F z ps + plySum F (z + thickness ps) qs := by
  induction ps generalizing z with
  | nil => simp [plySum, thickness]
  | cons p ps ih => rw [List.cons_append, plySum, plySum, ih, thickness_cons, add_assoc, add_assoc]

theorem plySum_reverse (F F' : Ply → ℝ → ℝ → ℝ) (h : ∀ p a b, F p a b = F' p (-b) (-a)) (ps : List Ply) (z : ℝ) :
    plySum F z ps.reverse = plySum F' (-(z + thickness ps)) ps := by
  induction ps generalizing z with
  | nil => simp [plySum]
  | cons p ps ih =>
    have ht : thickness ps.reverse = thickness ps := by simp [thickness, List.sum_reverse]
    rw [List.reverse_cons, plySum_append, ih, plySum, ht, thickness_cons]
    simp only [plySum, add_zero]
    rw [h]
    have e1 : -(z + thickness ps + p.t) = -(z + (p.t + thickness ps)) := by ring
    have e2 : -(z + (p.t + thickness ps)) + p.t = -(z + thickness ps) := by ring
    rw [e1, e2]
    ring

theorem plySum_neg (F : Ply → ℝ → ℝ → ℝ) (ps : List Ply) (z : ℝ) : plySum (fun p a b => -F p a b) z ps = -plySum F z ps := by
  induction ps generalizing z with
  | nil => simp [plySum]
  | cons p ps ih => simp only [plySum, ih]; ring

theorem thickness_reverse (ps : List Ply) : thickness ps.reverse = thickness ps := by simp [thickness, List.sum_reverse]

theorem centred_reverse (F F' : Ply → ℝ → ℝ → ℝ) (h : ∀ p a b, F p a b = F' p (-b) (-a)) (ps : List Ply) :
    plySum F (-(thickness ps.reverse / 2)) ps.reverse = plySum F' (-(thickness ps / 2)) ps := by
  rw [plySum_reverse F F' h, thickness_reverse]
  congr 1
  ring

/-- **C93.** Turning the stack upside down keeps `A`, `D` and `G_s` and changes the sign of the coupling `B`. -/
theorem C93_reversed (ps : List Ply) (kappa : ℝ) :
    ∃ L L', laminateStiffness (.each (ps.map Ply.C)) (.each (ps.map Ply.G)) (ps.map Ply.theta) (ps.map Ply.t) kappa = .ok L ∧
      laminateStiffness (.each (ps.reverse.map Ply.C)) (.each (ps.reverse.map Ply.G)) (ps.reverse.map Ply.theta)
        (ps.reverse.map Ply.t) kappa = .ok L' ∧
      L'.A = L.A ∧ L'.D = L.D ∧ L'.Gs = L.Gs ∧ ∀ i j k l, L'.B i j k l = -L.B i j k l := by
  obtain ⟨L, hL, hA, hB, hD, hG⟩ := laminate_eq ps kappa
  obtain ⟨L', hL', hA', hB', hD', hG'⟩ := laminate_eq ps.reverse kappa
  refine ⟨L, L', hL, hL', ?_, ?_, ?_, ?_⟩
  · funext i j k l
    rw [hA, hA']
    exact centred_reverse _ _ (fun p a b => by ring) ps
  · funext i j k l
    rw [hD, hD']
    exact centred_reverse _ _ (fun p a b => by ring) ps
  · funext i j
    rw [hG, hG']
    congr 1
    exact centred_reverse _ _ (fun p a b => by ring) ps
  · intro i j k l
    rw [hB, hB', ← plySum_neg]
    exact centred_reverse _ _ (fun p a b => by ring) ps

/-- **C93.** A laminate that is symmetric about its midplane has no coupling between membrane and bending. -/
theorem C93_symmetric_uncoupled (ps : List Ply) (hs : ps.reverse = ps) (kappa : ℝ) :
    ∃ L, laminateStiffness (.each (ps.map Ply.C)) (.each (ps.map Ply.G)) (ps.map Ply.theta) (ps.map Ply.t) kappa = .ok L ∧
      ∀ i j k l, L.B i j k l = 0 := by
  obtain ⟨L, L', hL, hL', -, -, -, hB⟩ := C93_reversed ps kappa
  rw [hs, hL] at hL'
  obtain rfl : L = L' := by injection hL'
  exact ⟨L, hL, fun i j k l => by linarith [hB i j k l]⟩

/-- The stack `[θ / -θ]` with its mirror image, in any material. -/
example (C : Arr4 ℝ 2) (G : Arr2 ℝ 2) (theta t : ℝ) :
    [(⟨C, G, theta, t⟩ : Ply), ⟨C, G, -theta, t⟩, ⟨C, G, -theta, t⟩, ⟨C, G, theta, t⟩].reverse
      = [⟨C, G, theta, t⟩, ⟨C, G, -theta, t⟩, ⟨C, G, -theta, t⟩, ⟨C, G, theta, t⟩] := rfl

/-- **C93.** A single ply at angle zero is the homogeneous plate. -/
theorem C93_single_ply (C : Arr4 ℝ 2) (G : Arr2 ℝ 2) (h kappa g : ℝ) :
    (∃ L, laminateStiffness (.one C) (.one G) [0] [h] kappa = .ok L ∧ (L.A, L.D, L.Gs) = plateStiffness C h G kappa ∧
      ∀ i j k l, L.B i j k l = 0) ∧
    plateStiffnessScalar C h g kappa = plateStiffness C h (fun i j => g * eye ℝ 2 i j) kappa := by
  constructor
  · obtain ⟨L, hL, hA, hB, hD, hG⟩ := laminate_eq [⟨C, G, 0, h⟩] kappa
    obtain ⟨r4, -, r2, -, -⟩ := C91_in_plane_angle C G 0 0
    simp only [Ply.Q, r4, r2, plySum, thickness, List.map_cons, List.map_nil, List.sum_cons, List.sum_nil, add_zero] at hA hB hD hG
    refine ⟨L, hL, ?_, fun i j k l => by rw [hB]; ring⟩
    unfold plateStiffness
    refine Prod.ext ?_ (Prod.ext ?_ ?_)
    · funext i j k l
      show L.A i j k l = _
      rw [hA]; ring
    · funext i j k l
      show L.D i j k l = _
      rw [hD]; ring
    · funext i j
      show L.Gs i j = _
      rw [hG]; ring
  · unfold plateStiffnessScalar plateStiffness
    refine Prod.ext rfl (Prod.ext rfl ?_)
    funext i j
    ring

/-! ### Turning a laminate in its plane -/

theorem rotate4_plySum (F : Ply → ℝ → ℝ → Arr4 ℝ 2) (R : Arr2 ℝ 2) (ps : List Ply) (z : ℝ) (i j k l : Fin 2) :
    rotate4 (fun p q r s => plySum (fun x a b => F x a b p q r s) z ps) R i j k l
      = plySum (fun x a b => rotate4 (F x a b) R i j k l) z ps := by
  induction ps generalizing z with
  | nil => simp [plySum, rotate4]
  | cons x ps ih =>
    simp only [plySum]
    rw [rotate4_add (F x z (z + x.t)) (fun p q r s => plySum (fun x a b => F x a b p q r s) (z + x.t) ps), ih]

theorem rotate2_plySum (F : Ply → ℝ → ℝ → Arr2 ℝ 2) (R : Arr2 ℝ 2) (ps : List Ply) (z : ℝ) (i j : Fin 2) :
    rotate2 (fun p q => plySum (fun x a b => F x a b p q) z ps) R i j = plySum (fun x a b => rotate2 (F x a b) R i j) z ps := by
  induction ps generalizing z with
  | nil => simp [plySum, rotate2]
  | cons x ps ih =>
    simp only [plySum]
    rw [← ih]
    simp only [rotate2, mul_add, Finset.sum_add_distrib]

theorem plySum_map (F : Ply → ℝ → ℝ → ℝ) (f : Ply → Ply) (hf : ∀ p, (f p).t = p.t) (ps : List Ply) (z : ℝ) :
    plySum F z (ps.map f) = plySum (fun p a b => F (f p) a b) z ps := by
  induction ps generalizing z with
  | nil => rfl
  | cons p ps ih => rw [List.map_cons, plySum, plySum, ih, hf]

/-- **C93.** Adding one angle to all plies turns the laminate: `A`, `B`, `D` and `G_s` are the turned tensors. -/
theorem C93_rotated (ps : List Ply) (kappa phi : ℝ) :
    ∃ L L', laminateStiffness (.each (ps.map Ply.C)) (.each (ps.map Ply.G)) (ps.map Ply.theta) (ps.map Ply.t) kappa = .ok L ∧
      laminateStiffness (.each (ps.map Ply.C)) (.each (ps.map Ply.G)) (ps.map fun p => p.theta + phi) (ps.map Ply.t) kappa = .ok L' ∧
      L'.A = rotateInPlane L.A phi ∧ L'.B = rotateInPlane L.B phi ∧ L'.D = rotateInPlane L.D phi ∧
      L'.Gs = rotateInPlane2 L.Gs phi := by
  obtain ⟨L, hL, hA, hB, hD, hG⟩ := laminate_eq ps kappa
  obtain ⟨f, hf⟩ : ∃ f : Ply → Ply, f = fun p => ⟨p.C, p.G, p.theta + phi, p.t⟩ := ⟨_, rfl⟩
  obtain ⟨L', hL', hA', hB', hD', hG'⟩ := laminate_eq (ps.map f) kappa
  have hft : ∀ p, (f p).t = p.t := fun p => by rw [hf]
  have hth : thickness (ps.map f) = thickness ps := by simp [thickness, hf, Function.comp_def]
  have hQ : ∀ p, (f p).Q = rotateInPlane p.Q phi := by
    intro p
    rw [hf]
    exact ((C91_in_plane_angle p.C p.G p.theta phi).2.1).symm
  have hS : ∀ p, rotateInPlane2 (f p).G (f p).theta = rotateInPlane2 (rotateInPlane2 p.G p.theta) phi := by
    intro p
    rw [hf]
    exact ((C91_in_plane_angle p.C p.G p.theta phi).2.2.2.1).symm
  have e1 : (ps.map f).map Ply.C = ps.map Ply.C := by simp [hf, Function.comp_def]
  have e2 : (ps.map f).map Ply.G = ps.map Ply.G := by simp [hf, Function.comp_def]
  have e3 : (ps.map f).map Ply.theta = ps.map fun p => p.theta + phi := by simp [hf, Function.comp_def]
  have e4 : (ps.map f).map Ply.t = ps.map Ply.t := by simp [hf, Function.comp_def]
  rw [e1, e2, e3, e4] at hL'
  have hsm : ∀ (c : ℝ) (T : Arr4 ℝ 2) (i j k l : Fin 2), c * rotateInPlane T phi i j k l
      = rotateInPlane (fun p q r s => c * T p q r s) phi i j k l := by
    intro c T i j k l
    simp only [rotateInPlane]
    rw [rotate4_smul]
  refine ⟨L, L', hL, hL', ?_, ?_, ?_, ?_⟩
  · funext i j k l
    have : L.A = fun p q r s => plySum (fun x a b => (fun p q r s => (b - a) * x.Q p q r s) p q r s) (-(thickness ps / 2)) ps := by
      funext p q r s
      rw [hA]
      exact plySum_congr (fun p _ a b => by ring) _
    rw [this, rotateInPlane, rotate4_plySum (fun x a b p q r s => (b - a) * x.Q p q r s), hA', plySum_map _ f hft, hth]
    apply plySum_congr
    intro p _ a b
    rw [hQ, mul_comm, hsm, rotateInPlane]
  · funext i j k l
    have : L.B = fun p q r s => plySum (fun x a b => (fun p q r s => (1 / 2 * (b ^ 2 - a ^ 2)) * x.Q p q r s) p q r s)
        (-(thickness ps / 2)) ps := by
      funext p q r s
      rw [hB]
      exact plySum_congr (fun p _ a b => by ring) _
    rw [this, rotateInPlane, rotate4_plySum (fun x a b p q r s => (1 / 2 * (b ^ 2 - a ^ 2)) * x.Q p q r s), hB',
      plySum_map _ f hft, hth]
    apply plySum_congr
    intro p _ a b
    rw [hQ, mul_right_comm, hsm, rotateInPlane]
  · funext i j k l
    have : L.D = fun p q r s => plySum (fun x a b => (fun p q r s => (1 / 3 * (b ^ 3 - a ^ 3)) * x.Q p q r s) p q r s)
        (-(thickness ps / 2)) ps := by
      funext p q r s
      rw [hD]
      exact plySum_congr (fun p _ a b => by ring) _
    rw [this, rotateInPlane, rotate4_plySum (fun x a b p q r s => (1 / 3 * (b ^ 3 - a ^ 3)) * x.Q p q r s), hD',
      plySum_map _ f hft, hth]
    apply plySum_congr
    intro p _ a b
    rw [hQ, mul_right_comm, hsm, rotateInPlane]
  · funext i j
    have hG2 : L.Gs = fun p q => plySum (fun x a b => (fun p q => (kappa * (b - a)) * rotateInPlane2 x.G x.theta p q) p q)
        (-(thickness ps / 2)) ps := by
      have hmul : ∀ (F : Ply → ℝ → ℝ → ℝ) (ps : List Ply) (z : ℝ),
          kappa * plySum F z ps = plySum (fun p a b => kappa * F p a b) z ps := by
        intro F ps
        induction ps with
        | nil => intro z; simp [plySum]
        | cons p ps ih => intro z; simp only [plySum, ← ih, mul_add]
      funext p q
      rw [hG, hmul]
      exact plySum_congr (fun p _ a b => by ring) _
    have hmul : ∀ (F : Ply → ℝ → ℝ → ℝ) (ps : List Ply) (z : ℝ),
        kappa * plySum F z ps = plySum (fun p a b => kappa * F p a b) z ps := by
      intro F ps
      induction ps with
      | nil => intro z; simp [plySum]
      | cons p ps ih => intro z; simp only [plySum, ← ih, mul_add]
    rw [hG2, rotateInPlane2, rotate2_plySum (fun x a b p q => (kappa * (b - a)) * rotateInPlane2 x.G x.theta p q), hG',
      plySum_map _ f hft, hth, hmul]
    apply plySum_congr
    intro p _ a b
    rw [hS]
    simp only [rotateInPlane2, rotate2, Fin.sum_univ_two]
    ring

end Verif.Props
