import Verif.Model.Interp

/-!
# What the scripts hand over to the package

Source: `/repo/scripts/lubis_et_al_2025/cal_lwa_budget_NHN22.py` lines 40-49 and 136-140, `cal_ncforce_loop.py` lines 43-52 and 94-101
(the same statements), `/repo/scripts/nhn_grl2022/sample_run_script.py` lines 39-48 and 115-119,
`/repo/scripts/mdtf_predigest_data/predigest_data.py` lines 45-46 and 85-89, and
`/repo/scripts/pre_process_data_in_hybrid_coordinates/vertical_interpolation_hybrid_to_pressure_poisson_filled_below_topo.py` lines
31-94. Indices start at 0. Longitudes are left out: no script touches their order. Exact arithmetic.
-/

noncomputable section

namespace Falwa.Script

/-- Latitudes, pressures and one field on them, in a file or as handed over to the constructor: `val k j`. -/
structure Data (β : Type*) where
  lat : ℕ → ℝ
  lev : ℕ → ℝ
  val : ℕ → ℕ → β

variable {β : Type*}

/-- `x[::-1]` for an axis of length `n`. -/
def rev {γ : Type*} (n : ℕ) (x : ℕ → γ) (j : ℕ) : γ := x (n - 1 - j)

/-- `if np.diff(ylat)[0] < 0: ylat = ylat[::-1]`. -/
def latIf (n : ℕ) (lat : ℕ → ℝ) : ℕ → ℝ := if lat 1 - lat 0 < 0 then rev n lat else lat

/-- `if np.diff(plev)[0] > 0: plev = plev[::-1]`. -/
def levIf (n : ℕ) (lev : ℕ → ℝ) : ℕ → ℝ := if 0 < lev 1 - lev 0 then rev n lev else lev

/-- `cal_lwa_budget_NHN22.py` and `cal_ncforce_loop.py`: fields as in the file. -/
def lubis (nlat nlev : ℕ) (f : Data β) : Data β := ⟨latIf nlat f.lat, levIf nlev f.lev, f.val⟩

/-- `sample_run_script.py`: fields with both axes reversed. -/
def sample (nlat nlev : ℕ) (f : Data β) : Data β :=
  ⟨latIf nlat f.lat, levIf nlev f.lev, fun k j => f.val (nlev - 1 - k) (nlat - 1 - j)⟩

/-- `predigest_data.py`: coordinates and fields with both axes reversed. -/
def predigest (nlat nlev : ℕ) (f : Data β) : Data β :=
  ⟨rev nlat f.lat, rev nlev f.lev, fun k j => f.val (nlev - 1 - k) (nlat - 1 - j)⟩

/-! ### Hybrid levels -/

/-- One column of a model file. -/
structure Hybrid where
  /-- number of layers -/
  nlev : ℕ
  /-- `hyai` -/
  ai : ℕ → ℝ
  /-- `hybi` -/
  bi : ℕ → ℝ
  /-- `P0` -/
  p0 : ℝ
  /-- `PS` -/
  ps : ℝ

namespace Hybrid

variable (H : Hybrid)

/-- `P_2levs`, line 58, in Pa. -/
def face (l : ℕ) : ℝ := H.ai l * H.p0 + H.bi l * H.ps

/-- `old_lev`, lines 59-60, in hPa. -/
def mid (l : ℕ) : ℝ := (H.face (l + 1) + H.face l) / 2 / 100

/-- `interp1d(old_lev, variable, fill_value=np.nan, bounds_error=False, kind='linear')(p)`, lines 65-67; `none` is NaN. For ascending
levels. -/
def value (y : ℕ → ℝ) (p : ℝ) : Option ℝ :=
  if p < H.mid 0 then none else if H.mid (H.nlev - 1) < p then none else some (interp1d H.nlev H.mid y p)

/-- `topography`, lines 89 and 94: 1 where the interpolated value is not NaN. -/
def topography (y : ℕ → ℝ) (p : ℝ) : Option ℝ := (H.value y p).map fun _ => 1

end Hybrid

end Falwa.Script
