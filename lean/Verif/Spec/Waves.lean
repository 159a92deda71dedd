import Verif.Spec.Continuum
import Verif.Spec.Rearrange

/-!
# Fields whose wave activity at a point of the sphere is looked at, on all heights up to `top`

`Q` depends on latitude, longitude and height; `φ` is the latitude of the point. Nothing of the model is used.
-/

noncomputable section

namespace Falwa.Spec

open Real MeasureTheory

/-- Zonal transport of displaced PV along one meridian, as `meridionalWaveActivity` with the zonal wind `u` in place of the cosine:
integral of `(Q - q) u` over the latitudes north of `φ` with `q < Q`, plus that of `(q - Q) u` over those south of `φ` with `q > Q`. -/
def meridionalTransport (a : ℝ) (q u : ℝ → ℝ) (Q φs φn φ : ℝ) : ℝ :=
  (∫ x in φ..φn, max (Q - q x) 0 * (a * u x)) + ∫ x in φs..φ, max (q x - Q) 0 * (a * u x)

/-- Growth of the wave activity along one meridian by a source `s` of PV: integral of `s` over the latitudes south of `φ` with `q > Q`,
less that over the latitudes north of `φ` with `q < Q`. -/
def meridionalSource (a : ℝ) (q s : ℝ → ℝ) (Q φs φn φ : ℝ) : ℝ :=
  (∫ x in φs..φ, if Q < q x then a * cos x * s x else 0) - ∫ x in φ..φn, if q x < Q then a * cos x * s x else 0

/-- On every level `v z` is the value whose contour encloses the area south of `φ`, and the field is greatest on a null set only. -/
structure WaveNorth (a top : ℝ) (Q : ℝ → ℝ → ℝ → ℝ) (φ : ℝ) (v : ℝ → ℝ) : Prop where
  north : 0 ≤ φ
  pole : φ < π / 2
  high : ∀ z, 0 ≤ z → z ≤ top → volume (highest fun x l => Q x l z) = 0
  encloses : ∀ z, 0 ≤ z → z ≤ top → Encloses a (fun x l => Q x l z) (-(π / 2)) (π / 2) (southCap a φ) (v z)

/-- The same in the Southern Hemisphere, with a field that is smallest on a null set only. -/
structure WaveSouth (a top : ℝ) (Q : ℝ → ℝ → ℝ → ℝ) (φ : ℝ) (v : ℝ → ℝ) : Prop where
  south : φ ≤ 0
  pole : -(π / 2) < φ
  low : ∀ z, 0 ≤ z → z ≤ top → volume (lowest fun x l => Q x l z) = 0
  encloses : ∀ z, 0 ≤ z → z ≤ top → Encloses a (fun x l => Q x l z) (-(π / 2)) (π / 2) (southCap a φ) (v z)

end Falwa.Spec
