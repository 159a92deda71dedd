import Verif.Model.Barotropic
import Verif.Model.Wrapper

/-!
# The procedural wrappers with their optional arguments

Source: `/repo/src/falwa/wrapper.py`. `Model/Wrapper.lean` starts from arguments that are already filled in; here are
the signatures a user calls.
-/

noncomputable section

namespace Falwa

/-- `barotropic_eqlat_lwa(ylat, vort, area, dmu, n_points, planet_radius, return_partitioned_lwa)`, wrapper.py lines 46-55.
`n_points = None` means `nlat` (lines 48-49). -/
def barotropicCall (nlat nlon : ℕ) (ylat : ℕ → ℝ) (vort area : ℕ → ℕ → ℝ) (dmu : ℕ → ℝ) (nPoints : Option ℕ)
    (radius : ℝ) (partitioned : Bool) : Outcome ((ℕ → ℝ) × LwaOut ℝ) :=
  ({ nlat, nlon, ylat, vort, area, nPoints := nPoints.getD nlat, radius } : EqvInput).qref.map
    (fun q => (q, (lwa nlat vort q dmu partitioned none).1))

/-- The arguments of a hemispheric wrapper with `nlat_s` and `n_points` possibly `None`, wrapper.py lines 116-122, 238-244,
309-315, 388-394, 499-502, 545-550. -/
def hemArgs (nlat nlon : ℕ) (ylat : ℕ → ℝ) (vort area : ℕ → ℕ → ℝ) (dmu : ℕ → ℝ) (nlatS nPoints : Option ℕ)
    (radius : ℝ) : HemInput where
  nlat := nlat
  nlon := nlon
  ylat := ylat
  vort := vort
  area := area
  dmu := dmu
  nlatS := (hemDefaults nlat nlatS nPoints).1
  nPoints := (hemDefaults nlat nlatS nPoints).2
  radius := radius

end Falwa

end
