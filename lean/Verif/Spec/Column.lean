import Verif.Spec.Dynamics
import Verif.Spec.Waves
import Verif.Spec.Flow

/-!
# Column means of wave activity and of the terms of its budget

For motions `M z` on all heights with reference values `v z t`, at time `t` and longitude `l`, for the latitude `φ` and a region
between the latitudes `φs` and `φn`.
-/

noncomputable section

namespace Falwa.Spec

open Real

variable (M : ℝ → Motion) (v : ℝ → ℝ → ℝ) (a H top φs φn φ t l : ℝ)

def columnWave : ℝ := columnMean H top fun z => meridionalWaveActivity a (fun x => (M z).q t x l) (v z t) φs φn φ

/-- With the factor `cos φ` of the fluxes that the package returns. -/
def columnTransport : ℝ := columnMean H top fun z =>
  cos φ * meridionalTransport a (fun x => (M z).q t x l) (fun x => (M z).U t x l) (v z t) φs φn φ

def columnOutflow : ℝ := columnMean H top fun z => meridionalOutflow (fun x => (M z).q t x l) (fun x => (M z).V t x l) (v z t) φs φn φ

/-- Of a source `G` given at height, time, latitude and longitude. -/
def columnSource (G : ℝ → ℝ → ℝ → ℝ → ℝ) : ℝ := columnMean H top fun z =>
  meridionalSource a (fun x => (M z).q t x l) (fun x => G z t x l) (v z t) φs φn φ

end Falwa.Spec

end
