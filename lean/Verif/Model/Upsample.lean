import Verif.Model.OC
import Mathlib.Data.Rat.Floor

/-!
# Seeding a finer level: `_upsample` in `/repo/feax/gene/narrowband.py`

`scipy.ndimage.zoom(order=1, mode="nearest")` is modelled by its documented result: linear interpolation along every axis, the first and
last samples of input and output on top of each other. Densities are rational numbers; the quotients `t / s` may carry rounding errors.
-/

namespace Verif.Model

/-- A density grid: its shape and its values. -/
structure RhoGrid where
  shape : ℕ × ℕ × ℕ
  val : ℕ → ℕ → ℕ → ℚ

/-- The place of output sample `i` of `o` in an axis of `s` samples (`zoom`, `/repo/feax/gene/narrowband.py:186`): `zoom` divides by
`o - 1` unless that is zero. -/
def zoomCoord (s o i : ℕ) : ℚ := if o = 1 then (i : ℚ) else (i : ℚ) * (((s : ℚ) - 1) / ((o : ℚ) - 1))

/-- `zoom` along one axis (`/repo/feax/gene/narrowband.py:186`). -/
def zoomLine (s o : ℕ) (f : ℕ → ℚ) (i : ℕ) : ℚ :=
  let lo := ⌊zoomCoord s o i⌋.toNat
  let w := zoomCoord s o i - lo
  (1 - w) * f (min lo (s - 1)) + w * f (min (lo + 1) (s - 1))

/-- `zoom` (`/repo/feax/gene/narrowband.py:186`) to `o` samples per axis. -/
def zoomGrid (o : ℕ × ℕ × ℕ) (g : RhoGrid) : RhoGrid :=
  ⟨o, fun i j k => zoomLine g.shape.1 o.1 (fun a => zoomLine g.shape.2.1 o.2.1 (fun b => zoomLine g.shape.2.2 o.2.2 (fun c => g.val a b c) k) j) i⟩

/-- The number of samples `zoom` produces: `round(s * fac)`. -/
def zoomSize (s : ℕ) (fac : ℚ) : ℕ := (pyRound (s * fac)).toNat

/-- The values after cropping and edge padding to `t` samples (`/repo/feax/gene/narrowband.py:187-191`): beyond the samples of `zoom` the
last one is repeated. -/
def cropPad (o : ℕ) (i : ℕ) : ℕ := min i (o - 1)

/-- `_upsample` (`/repo/feax/gene/narrowband.py:181-192`); `fac` are the computed quotients (line 185). -/
def upsample (fac : ℚ × ℚ × ℚ) (target : ℕ × ℕ × ℕ) (g : RhoGrid) : RhoGrid :=
  let o := (zoomSize g.shape.1 fac.1, zoomSize g.shape.2.1 fac.2.1, zoomSize g.shape.2.2 fac.2.2)
  let z := zoomGrid o g
  ⟨target, fun i j k => max 0 (min 1 (z.val (cropPad (min o.1 target.1) i) (cropPad (min o.2.1 target.2.1) j) (cropPad (min o.2.2 target.2.2) k)))⟩

end Verif.Model
