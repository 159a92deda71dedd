{
 "claims": [
  {
   "property": "C01",
   "status": "proved",
   "theorems": [
    "Falwa.C01_lwa_nonneg"
   ],
   "note": "All fields, profiles and sizes; total and both components."
  },
  {
   "property": "C02",
   "status": "partial",
   "theorems": [
    "Falwa.C02_last_row_derived_profile",
    "Falwa.C02_lwa_eq_displaced_integral_partial",
    "Falwa.C02_last_row_partial",
    "Falwa.C02_refuted"
   ],
   "note": "Holds on every row but the last for total and components; on the last row it holds if the reference value there bounds the column (true for the derived profile on a grid ending at the pole). C02_refuted shows it fails on the last row in general because the loop stops at nlat-2."
  },
  {
   "property": "C03",
   "status": "proved",
   "theorems": [
    "Falwa.C03_no_wave_no_activity",
    "Falwa.C03_zero_iff_undisturbed"
   ],
   "note": "Zero for wave-free states on all rows; zero iff undisturbed on all rows but the last."
  },
  {
   "property": "C04",
   "status": "proved",
   "theorems": [
    "Falwa.C04_partition_adds_up"
   ],
   "note": "Components add up; each collects only its own kind of displacement."
  },
  {
   "property": "C05",
   "status": "proved",
   "theorems": [
    "Falwa.C05_local_in_longitude",
    "Falwa.C05_relabel_longitudes"
   ],
   "note": "Locality in longitude and equivariance under every relabelling of longitudes, forcing term included."
  },
  {
   "property": "C06",
   "status": "proved",
   "theorems": [
    "Falwa.C06_scale_field",
    "Falwa.C06_scale_field_forcing",
    "Falwa.C06_offset_field",
    "Falwa.C06_scale_dmu"
   ],
   "note": "Scaling, offset and dmu laws for both components."
  },
  {
   "property": "C07",
   "status": "proved",
   "theorems": [
    "Falwa.C07_forcing_presence",
    "Falwa.C07_forcing_linear",
    "Falwa.C07_forcing_supported_on_displaced",
    "Falwa.C07_forcing_zero_without_waves"
   ],
   "note": "Presence, linearity, non-interference, support on displaced rows."
  },
  {
   "property": "C08",
   "status": "proved",
   "theorems": [
    "Falwa.C08_qref_monotone_bounded"
   ],
   "note": "Over the reals, with a NaN outcome in the model; success is part of the statement."
  },
  {
   "property": "C09",
   "status": "proved",
   "theorems": [
    "Falwa.C09_qref_of_distribution",
    "Falwa.C09_qref_rearrangement",
    "Falwa.C09_qref_rotation"
   ],
   "note": "Equality of (value, area) multisets suffices; rearrangements and rotations as corollaries."
  },
  {
   "property": "C10",
   "status": "proved",
   "theorems": [
    "Falwa.C10_same_profile"
   ],
   "note": "Equality of the profiles for every input, error cases included."
  },
  {
   "property": "C11",
   "status": "proved",
   "theorems": [
    "Falwa.C11_area_bookkeeping",
    "Falwa.C11_arcsin_defined",
    "Falwa.C11_nan_if_too_large"
   ],
   "note": "Start, monotonicity, exact accounting with the area at the maximum, arcsin arguments in range; NaN shown when the areas do not fit."
  },
  {
   "property": "C12",
   "status": "proved",
   "theorems": [
    "Falwa.C12_default_areas_fit"
   ],
   "note": "Every resolution with at least 3 latitudes; areas non-negative, total bounded, analysis of every field succeeds."
  },
  {
   "property": "C13",
   "status": "proved",
   "theorems": [
    "Falwa.C13_affine_field",
    "Falwa.C13_scale_length"
   ],
   "note": "Positive affine changes of the field and changes of length unit."
  },
  {
   "property": "C14",
   "status": "partial",
   "theorems": [
    "Falwa.C14_default_domain_partial",
    "Falwa.C14_mirror_partial",
    "Falwa.C14_refuted"
   ],
   "note": "Profile mirrored exactly (nlat_s up to half the grid, symmetric dmu). Wave activity mirrored only up to the row's own contribution, on southern rows off the domain edge. C14_refuted: exact mirror symmetry of the wave activity fails."
  },
  {
   "property": "C15",
   "status": "partial",
   "theorems": [
    "Falwa.C15_wrappers_agree_partial",
    "Falwa.C15_hemispheric_sign_partial",
    "Falwa.C15_refuted"
   ],
   "note": "The three wave-activity wrappers agree for every input. C15_refuted: eqvlat_hemispheric returns the northern rows with the opposite sign (C15_hemispheric_sign_partial)."
  },
  {
   "property": "C16",
   "status": "partial",
   "theorems": [
    "Falwa.C16_always_type_error",
    "Falwa.C16_refuted",
    "Falwa.C16_options_without_vgrad_partial"
   ],
   "note": "Refuted for every argument: eqvlat_bracket_hemispheric always raises TypeError, qgpv_eqlat_lwa_options does whenever vgrad is given. Only the call without vgrad is shown to work; properties of the bracket average itself are under C104."
  },
  {
   "property": "C17",
   "status": "partial",
   "theorems": [
    "Falwa.C17_prescribed_profile_hemispheric",
    "Falwa.C17_prescribed_profile_barotropic_partial",
    "Falwa.C17_refuted"
   ],
   "note": "Hemispheric pair proved for nlat_s up to half the grid. Barotropic pair refuted: it returns the tuple (wave activity, None) for every input; the first component is the derived wave activity."
  },
  {
   "property": "C18",
   "status": "partial",
   "theorems": [
    "Falwa.C18_zonal_total_partial",
    "Falwa.C18_refuted"
   ],
   "note": "Zero zonal total, zero for uniform rows and the centred quotient off the poles hold. Zero on the rows near the poles is refuted: the raw neighbour difference is returned there."
  },
  {
   "property": "C19",
   "status": "proved",
   "theorems": [
    "Falwa.C19_linear",
    "Falwa.C19_rotation"
   ],
   "note": "Linearity and equivariance under rotation, across the longitude seam."
  },
  {
   "property": "C20",
   "status": "partial",
   "theorems": [
    "Falwa.C20_affine_partial",
    "Falwa.C20_refuted",
    "Falwa.C20_linear",
    "Falwa.C20_interior_total"
   ],
   "note": "Exact on interior rows, linear, and the interior total telescopes. Exactness on the first and last row is refuted: half of the slope is returned."
  },
  {
   "property": "C21",
   "status": "proved",
   "theorems": [
    "Falwa.C21_curl_of_gradient",
    "Falwa.C21_boundary_and_linear",
    "Falwa.C21_rotation"
   ],
   "note": "Curl of a discrete gradient is zero at every point; zero boundary rows; linearity; rotation."
  },
  {
   "property": "C22",
   "status": "proved",
   "theorems": [
    "Falwa.C22_shape",
    "Falwa.C22_linear",
    "Falwa.C22_affine"
   ],
   "note": "Exact condition for success, linearity for successful calls, exactness on affine quantities on every level."
  },
  {
   "property": "C23",
   "status": "proved",
   "theorems": [
    "Falwa.C23_affine",
    "Falwa.C23_means_bounded",
    "Falwa.C23_hemispheres_independent"
   ],
   "note": "Exactness on affine profiles, bounds for the means, independence of the hemispheres."
  },
  {
   "property": "C24",
   "status": "partial",
   "theorems": [
    "Falwa.C24_rest_partial",
    "Falwa.C24_linear_partial",
    "Falwa.C24_middle_row",
    "Falwa.C24_odd_grid_uncovered",
    "Falwa.C24_refuted",
    "Falwa.C24_equator_row_partial"
   ],
   "note": "Holds on rows covered by a hemispheric slice. Refuted on rows between the slices, which exist for every odd grid with default nlat_s: these read uninitialised memory. On the equator row the QGPV is saved by sin = 0."
  },
  {
   "property": "C25",
   "status": "proved",
   "theorems": [
    "Falwa.C25_reads_are_history_independent",
    "Falwa.C25_read_values"
   ],
   "note": "All histories of reads."
  },
  {
   "property": "C26",
   "status": "partial",
   "theorems": [
    "Falwa.C26_consistent_before_first_lwa_partial",
    "Falwa.C26_lwa_is_frozen",
    "Falwa.C26_refuted"
   ],
   "note": "Refuted: lwa is cached, the latitudes are not. Proved up to the first read of lwa; afterwards lwa is frozen."
  },
  {
   "property": "C27",
   "status": "proved",
   "theorems": [
    "Falwa.C27_store_north",
    "Falwa.C27_round_trip_north"
   ],
   "note": "Northern store, frame condition and round trip, both modes."
  },
  {
   "property": "C28",
   "status": "proved",
   "theorems": [
    "Falwa.C28_store_south",
    "Falwa.C28_history"
   ],
   "note": "One southern store (mirrored position, frame, read in global order), and the contents of every row after any interleaving of hemispheric reads and stores."
  },
  {
   "property": "C29",
   "status": "proved",
   "theorems": [
    "Falwa.C29_south_refused",
    "Falwa.C29_south_has_no_effect",
    "Falwa.C29_only_in_northern_mode"
   ],
   "note": "In northern-only mode each southern access raises and changes nothing, and can be removed from any history; global mode never raises that exception."
  },
  {
   "property": "C30",
   "status": "partial",
   "theorems": [
    "Falwa.C30_accessors_partial",
    "Falwa.C30_barotropic_all",
    "Falwa.C30_refuted"
   ],
   "note": "Holds for all accessors except ep4_nhem and ep4_shem of the layerwise storage, which refer to an array that is never allocated (refuted)."
  },
  {
   "property": "C31",
   "status": "proved",
   "theorems": [
    "Falwa.C31_inverse",
    "Falwa.C31_position"
   ],
   "note": "Axis swap is an involution and moves values as stated."
  },
  {
   "property": "C32",
   "status": "proved",
   "theorems": [
    "Falwa.C32_accepts_exactly",
    "Falwa.C32_analysis_grid"
   ],
   "note": "Acceptance condition as an equivalence, and position of the equator in the analysis grid. Equal first two latitudes are accepted. Exact arithmetic; C143 treats the rounding of the analysis grid."
  },
  {
   "property": "C33",
   "status": "partial",
   "theorems": [
    "Falwa.C33_middle_equator_partial",
    "Falwa.C33_refuted"
   ],
   "note": "Holds for accepted grids without the equator and for accepted grids symmetric about it. Refuted in general: latitudes 0, 90 are accepted."
  },
  {
   "property": "C34",
   "status": "proved",
   "theorems": [
    "Falwa.C34_kmax_bound",
    "Falwa.C34_ascending_refused"
   ],
   "note": "The largest allowed kmax is the documented floor expression; ascending pressure is refused."
  },
  {
   "property": "C35",
   "status": "partial",
   "theorems": [
    "Falwa.C35_first_pair_partial",
    "Falwa.C35_refuted",
    "Falwa.C35_levels_refuted"
   ],
   "note": "Only the first pair of each array is checked; the replacement of an even grid is strictly ascending. Monotonicity of the whole array is refuted for latitudes and for pressure."
  },
  {
   "property": "C36",
   "status": "proved",
   "theorems": [
    "Falwa.C36_completes_exactly",
    "Falwa.C36_refused",
    "Falwa.C36_uses_converged_states"
   ],
   "note": "Completion after any history as an equivalence; refusal changes nothing and raises ValueError (AssertionError if only the shape of ncforce is wrong); the reference states used had converged."
  },
  {
   "property": "C37",
   "status": "partial",
   "theorems": [
    "Falwa.C37_signalled_partial",
    "Falwa.C37_refuted"
   ],
   "note": "Every failure is signalled and flagged, and the exact meaning of the flag over histories is proved. Refuted: convergence in exactly maxit sweeps is reported as failure, and the flag is never cleared."
  },
  {
   "property": "C38",
   "status": "partial",
   "theorems": [
    "Falwa.C38_failure_is_permanent",
    "Falwa.C38_no_failure_partial",
    "Falwa.C38_refuted"
   ],
   "note": "Holds for histories without failure only. Refuted: after one failure the flux computation raises ValueError for every continuation."
  },
  {
   "property": "C39",
   "status": "partial",
   "theorems": [
    "Falwa.C39_guard",
    "Falwa.C39_needs_fields_partial",
    "Falwa.C39_refuted"
   ],
   "note": "The read guard is proved as an equivalence over histories, and completion implies interpolated fields. Refuted: completion does not need reference states."
  },
  {
   "property": "C40",
   "status": "partial",
   "theorems": [
    "Falwa.QGAnalysis.C40_average_partial",
    "Falwa.QGAnalysis.C40_refuted"
   ],
   "note": "The column average multiplies a constant by 1 + w_top, with w_top the relative weight of the top level. After compute_lwa_only the value is exact on analysed rows and 0 elsewhere. Refuted as stated."
  },
  {
   "property": "C41",
   "status": "proved",
   "theorems": [
    "Falwa.QGAnalysis.C41_linear_monotone",
    "Falwa.QGAnalysis.C41_lwa_only"
   ],
   "note": "Linear and strictly monotone in the field, for both code paths."
  },
  {
   "property": "C42",
   "status": "proved",
   "theorems": [
    "Falwa.QGAnalysis.C42_north",
    "Falwa.QGAnalysis.C42_south",
    "Falwa.QGAnalysis.C42_zero",
    "Falwa.QGAnalysis.C42_nonneg",
    "Falwa.QGAnalysis.C42_parts"
   ],
   "note": "Equality with the displaced-row integral in both hemispheres, zero elsewhere, sign of each part, sum of the parts."
  },
  {
   "property": "C43",
   "status": "partial",
   "theorems": [
    "Falwa.QGAnalysis.C43_lwa",
    "Falwa.QGAnalysis.C43_baro_partial",
    "Falwa.QGAnalysis.C43_refuted"
   ],
   "note": "lwa agrees for all inputs. lwa_baro agrees up to the factor exp(-z1/H) on evenly spaced levels, hence agrees if the lowest level is 0. Refuted for other evenly spaced levels."
  },
  {
   "property": "C44",
   "status": "proved",
   "theorems": [
    "Falwa.QGAnalysis.C44_f1",
    "Falwa.QGAnalysis.C44_sum",
    "Falwa.QGAnalysis.C44_convergence"
   ],
   "note": "F1 on every row of both hemispheres; sum of the three fluxes; convergence sums to zero over each circle and has the stated value where cos(phi) > 1e-5."
  },
  {
   "property": "C45",
   "status": "proved",
   "theorems": [
    "Falwa.QGAnalysis.C45_no_eddies"
   ],
   "note": "All outputs vanish on every row, including those that are affected by out-of-range subscripts."
  },
  {
   "property": "C46",
   "status": "partial",
   "theorems": [
    "Falwa.QGAnalysis.C46_bounds_partial",
    "Falwa.QGAnalysis.C46_always_violated",
    "Falwa.QGAnalysis.C46_refuted"
   ],
   "note": "Every access is in bounds except uref(0,k) on line 152 and, for jb = 0, ep2(i,0,k) and ep3(i,0,k) on lines 177-178. Refuted on every grid."
  },
  {
   "property": "C47",
   "status": "proved",
   "theorems": [
    "Falwa.Atmos.C47_profiles",
    "Falwa.Atmos.C47_qgpv",
    "Falwa.Atmos.C47_reference_states",
    "Falwa.Atmos.C47_local_results",
    "Falwa.Atmos.C47_convergence",
    "Falwa.C47_static_stability"
   ],
   "note": "Rotation by any number of columns, both classes, all grids with at least two longitudes: profiles, vorticity, QGPV, reference states, wave activity, fluxes, convergence and static_stability. The interpolations act per column; they are parameters."
  },
  {
   "property": "C48",
   "status": "partial",
   "theorems": [
    "Falwa.Atmos.C48_profiles",
    "Falwa.Atmos.C48_qgpv",
    "Falwa.Atmos.C48_qref",
    "Falwa.Atmos.C48_nh18_reference_partial",
    "Falwa.Atmos.C48_lwa_partial",
    "Falwa.Atmos.C48_nh18_fluxes_partial",
    "Falwa.Atmos.C48_nh18_convergence_partial",
    "Falwa.Atmos.C48_equator_condition",
    "Falwa.Atmos.C48_nh18_refuted",
    "Falwa.Atmos.C48_nhn22_never",
    "Falwa.Atmos.C48_nhn22_refuted",
    "Falwa.Atmos.C48_nhn22_reference_partial",
    "Falwa.Atmos.C48_nhn22_wind_iff",
    "Falwa.Atmos.C48_nhn22_fluxes_partial",
    "Falwa.Atmos.C48_nhn22_symmetric"
   ],
   "note": "Violated for both classes (C48_nh18_refuted, C48_nhn22_refuted; C48_nhn22_never for every atmosphere with two different profiles). Proved: vorticity, QGPV and reference QGPV on every row in both classes; NH18 reference wind on every row, reference temperature, wave activity and all fluxes off the equator; NHN22 wave activity off the equator. NHN22 reference wind off the equator: mirrored if and only if both hemispheres have the same circulation at the boundary row (C48_nhn22_wind_iff); then the reference temperature is mirrored up to the difference of the two profiles, and all fluxes if the profiles agree."
  },
  {
   "property": "C49",
   "status": "partial",
   "theorems": [
    "Falwa.AreaIn.C49_assigned_partial",
    "Falwa.AreaIn.C49_monotone_partial",
    "Falwa.AreaIn.C49_refuted",
    "Falwa.AreaIn.C49_out_of_range"
   ],
   "note": "A row is assigned exactly if some bracketing pair of cumulative areas contains the cap area; assigned rows are in range and monotone. Refuted: rows can stay unassigned (zero, possibly out of range)."
  },
  {
   "property": "C50",
   "status": "partial",
   "theorems": [
    "Falwa.AreaIn.C50_partitions_partial",
    "Falwa.AreaIn.C50_total_partial",
    "Falwa.AreaIn.C50_refuted"
   ],
   "note": "Each cell falls in exactly one partition 1..npart. The cumulative area is the sphere minus the first partition; refuted as stated."
  },
  {
   "property": "C51",
   "status": "partial",
   "theorems": [
    "Falwa.AreaIn.C51_distribution_partial",
    "Falwa.AreaIn.C51_permutation",
    "Falwa.AreaIn.C51_mirror",
    "Falwa.AreaIn.C51_refuted"
   ],
   "note": "Holds for fields in which every value covers the same area and the same values occur; in particular all permutations of cells with equal area, and the mirror image. Refuted when only values on the zero-area pole rows change."
  },
  {
   "property": "C52",
   "status": "proved",
   "theorems": [
    "Falwa.NhnIn.C52_mean_nhn22",
    "Falwa.RefIn.C52_mean_nh18"
   ],
   "note": "Both solvers, all levels. The prescribed mean is the zonal and row mean of the data for NH18, the profile passed by the caller for NHN22."
  },
  {
   "property": "C53",
   "status": "proved",
   "theorems": [
    "Falwa.NhnIn.C53_balance_nhn22",
    "Falwa.RefIn.C53_balance_nh18"
   ],
   "note": "Both solvers, all interior rows and levels."
  },
  {
   "property": "C54",
   "status": "partial",
   "theorems": [
    "Falwa.NhnIn.C54_interior_partial",
    "Falwa.NhnIn.C54_top_partial",
    "Falwa.NhnIn.C54_jb_zero_partial",
    "Falwa.NhnIn.C54_three_rows",
    "Falwa.NhnIn.C54_unique",
    "Falwa.NhnIn.C54_exists",
    "Falwa.NhnIn.C54_refuted"
   ],
   "note": "With exact inverses the interior equation, both lateral conditions and the lower condition hold for at least four analysed rows; the upper condition holds with temperature rows shifted by jb; everything holds for jb = 0. The problem has exactly one solution. Refuted as stated for jb = 1. With three rows the equation holds iff the boundary value is zero."
  },
  {
   "property": "C55",
   "status": "partial",
   "theorems": [
    "Falwa.RefIn.C55_fixed_points",
    "Falwa.RefIn.C55_count",
    "Falwa.RefIn.C55_failure_partial",
    "Falwa.RefIn.C55_refuted",
    "Falwa.RefIn.C55_unique",
    "Falwa.RefIn.C55_exists"
   ],
   "note": "Fixed points, iteration bound and iteration count proved, and the problem has exactly one solution. The last clause is refuted: after failure the first row keeps the zonal-mean wind of the data; all other rows are zero."
  },
  {
   "property": "C56",
   "status": "partial",
   "theorems": [
    "Falwa.AreaIn.C56_north_circulation_partial",
    "Falwa.AreaIn.C56_refuted",
    "Falwa.Nhn22.C56_calls_partial"
   ],
   "note": "The circulation used for the south equals the northern one for every field. Refuted as stated."
  },
  {
   "property": "C57",
   "status": "partial",
   "theorems": [
    "Falwa.Nhn22.C57_north_profile_partial",
    "Falwa.Nhn22.C57_always_violated",
    "Falwa.Nhn22.C57_refuted"
   ],
   "note": "The southern mean is the northern profile for every field; refuted whenever the profiles differ."
  },
  {
   "property": "C58",
   "status": "partial",
   "theorems": [
    "Falwa.C58_global_partial",
    "Falwa.C58_northern_never",
    "Falwa.C58_layerwise_never",
    "Falwa.C58_heating_never",
    "Falwa.C58_tuple_never",
    "Falwa.C58_refuted"
   ],
   "note": "Violated (C58_refuted). Proved for every accepted grid without equator: in global mode interpolation, reference states, LWA and fluxes work and all properties have the input number of latitudes; northern-only mode always raises ValueError; layerwise fluxes with default or input-grid forcing and the heating-rate forcing always fail; the flux tuple always has one latitude too many."
  },
  {
   "property": "C59",
   "status": "partial",
   "theorems": [
    "Falwa.C59_middle_partial",
    "Falwa.C59_properties_partial",
    "Falwa.C59_tuple_never",
    "Falwa.C59_offcentre_never",
    "Falwa.C59_refuted"
   ],
   "note": "Violated (C59_refuted). Proved: all shapes match on every accepted grid symmetric about its equator, both modes; properties match on every accepted grid without equator; there the flux tuple never matches in global mode; off-centre equators never match in northern-only mode."
  },
  {
   "property": "C60",
   "status": "proved",
   "theorems": [
    "Falwa.Xr.C60_user",
    "Falwa.Xr.C60_default",
    "Falwa.Xr.C60_error"
   ],
   "note": "The user's name, the first default present, and the failure case, for all lists and tables."
  },
  {
   "property": "C61",
   "status": "proved",
   "theorems": [
    "Falwa.Xr.C61_flatten_restore"
   ],
   "note": "For any number and sizes of extra dimensions, with reshape modelled in C order. Includes that the reshaping itself never raises."
  },
  {
   "property": "C62",
   "status": "partial",
   "theorems": [
    "Falwa.Xr.C62_fields",
    "Falwa.Xr.C62_later_partial",
    "Falwa.Xr.C62_refuted"
   ],
   "note": "Input fields: proved for all strictly monotone coordinates. Arrays passed later (heating_rate, ncforce) are not flipped: refuted for north-to-south latitudes, proved when no flip is needed."
  },
  {
   "property": "C63",
   "status": "partial",
   "theorems": [
    "Falwa.Xr.C63_swapped_partial",
    "Falwa.Xr.C63_refuted"
   ],
   "note": "Violated: the two labels are exchanged for every pair of profiles. Proved: exactly this exchange, and the single northern profile in northern-only mode."
  },
  {
   "property": "C64",
   "status": "proved",
   "theorems": [
    "Falwa.Xr.C64_mirror",
    "Falwa.Xr.C64_refused"
   ],
   "note": "Both hemispheres and both orders, equator within 1e-4 degrees at one end. Order, length, single equator, content of every variable; refusal otherwise."
  },
  {
   "property": "C65",
   "status": "proved",
   "theorems": [
    "Falwa.Xr.C65_closes",
    "Falwa.Xr.C65_additive",
    "Falwa.Xr.C65_affine"
   ],
   "note": "Closure and additivity for distinct time labels; exactness of the trapezoidal rule for affine tendencies on every time axis."
  },
  {
   "property": "C66",
   "status": "proved",
   "theorems": [
    "Falwa.C66_covariance",
    "Falwa.C66_laws"
   ],
   "note": "Against the pairwise form of the sample covariance, in which no mean occurs; np.cov and np.diagonal modelled on the concatenated columns."
  },
  {
   "property": "C67",
   "status": "proved",
   "theorems": [
    "Falwa.C67_gridfill"
   ],
   "note": "With the filler as a parameter; the model also returns the argument of the call, so skipping the filler is observable."
  },
  {
   "property": "C68",
   "status": "proved",
   "theorems": [
    "Falwa.C68_numbering"
   ],
   "note": "For all sizes."
  },
  {
   "property": "C69",
   "status": "proved",
   "theorems": [
    "Falwa.C69_nh18",
    "Falwa.C69_nhn22"
   ],
   "note": "Through the storage setters, for both solvers and both modes, on the evenly spaced analysis grid; levels 1 and kmax hold zeros."
  },
  {
   "property": "C70",
   "status": "partial",
   "theorems": [
    "Falwa.QGAnalysis.C70_north_partial",
    "Falwa.QGAnalysis.C70_south_unchanged_partial",
    "Falwa.QGAnalysis.C70_refuted"
   ],
   "note": "Violated: the southern components are never stored. Proved: they add up north of the equator and everywhere in northern-only mode; in the south the storage keeps its old contents for every field."
  },
  {
   "property": "C71",
   "status": "partial",
   "theorems": [
    "Falwa.C71_theta_wave_free_partial",
    "Falwa.C71_refuted"
   ],
   "note": "Southern rows proved zero; northern rows given by an explicit sum. C71_refuted: a northern row has wave activity 1."
  },
  {
   "property": "C72",
   "status": "partial",
   "theorems": [
    "Falwa.C72_guarded_groups_partial",
    "Falwa.C72_refuted"
   ],
   "note": "Holds for interpolated fields and layerwise terms. Refuted for reference states, barotropic results and lwa, which are read as zeros."
  },
  {
   "property": "C73",
   "status": "partial",
   "theorems": [
    "Falwa.C73_same_input_partial",
    "Falwa.C73_refuted"
   ],
   "note": "Holds if the input is not replaced. Refuted: after new input and interpolate_fields the old reference states are used."
  },
  {
   "property": "C74",
   "status": "partial",
   "theorems": [
    "Falwa.QGAnalysis.C74_pole_partial",
    "Falwa.QGAnalysis.C74_pole_content",
    "Falwa.QGAnalysis.C74_refuted"
   ],
   "note": "Holds for boundary index >= 1. Refuted for boundary index 0; the content of the pole row is characterised."
  },
  {
   "property": "C75",
   "status": "partial",
   "theorems": [
    "Falwa.QGAnalysis.C75_divergence_partial",
    "Falwa.QGAnalysis.C75_refuted"
   ],
   "note": "Holds on all analysed rows except the one next to the equatorward boundary, in both hemispheres. Refuted there."
  },
  {
   "property": "C76",
   "status": "proved",
   "theorems": [
    "Falwa.AreaIn.C76_enclosed_area"
   ],
   "note": "For every assigned row below the pole."
  },
  {
   "property": "C77",
   "status": "partial",
   "theorems": [
    "Falwa.RefIn.C77_assigned_partial",
    "Falwa.RefIn.C77_refuted"
   ],
   "note": "Holds if the area analysis assigns the first row on every interior level. Refuted without this condition."
  },
  {
   "property": "C78",
   "status": "partial",
   "theorems": [
    "Falwa.NhnIn.C78_boundary_row_partial",
    "Falwa.NhnIn.C78_refuted"
   ],
   "note": "Refuted. What the code returns on that row: zero below the top level and minus the rotation speed at the top."
  },
  {
   "property": "C79",
   "status": "proved",
   "theorems": [
    "Falwa.NhnIn.C79_nonsingular",
    "Falwa.NhnIn.C79_exact"
   ],
   "note": "By a row-sum invariant of the elimination matrices. Conclusion also in the form needed by C54: a correct inversion routine gives exact inverses throughout."
  },
  {
   "property": "C80",
   "status": "partial",
   "theorems": [
    "Falwa.Atmos.C80_vorticity_partial",
    "Falwa.Atmos.C80_refuted"
   ],
   "note": "The zonal derivative is multiplied by dlambda/dphi = 2(nlat-1)/nlon; refuted in general, proved with the exact factor for every grid, and as stated for nlon = 2(nlat-1)."
  },
  {
   "property": "C81",
   "status": "partial",
   "theorems": [
    "Falwa.Atmos.C81_qgpv_partial",
    "Falwa.Atmos.C81_refuted"
   ],
   "note": "Proved for NHN22. For NH18 proved with the zonal mean absolute vorticity in place of f, and the stated form refuted. Lowest and highest level are zero in both."
  },
  {
   "property": "C82",
   "status": "proved",
   "theorems": [
    "Falwa.Atmos.C82_band_circulation",
    "Falwa.Atmos.C82_pole_rows",
    "Falwa.Atmos.C82_solid_body",
    "Falwa.Atmos.C82_rest"
   ],
   "note": "Band circulation, rest, solid-body rotation and pole rows, for every grid."
  },
  {
   "property": "C83",
   "status": "proved",
   "theorems": [
    "Falwa.QGAnalysis.C83_north",
    "Falwa.QGAnalysis.C83_south",
    "Falwa.QGAnalysis.C83_reference_wind",
    "Falwa.QGAnalysis.C83_eastward"
   ],
   "note": "Both hemispheres, independence of the reference wind, sign."
  },
  {
   "property": "C84",
   "status": "proved",
   "theorems": [
    "Falwa.QGAnalysis.C84_f3"
   ],
   "note": "Both hemispheres."
  },
  {
   "property": "C85",
   "status": "proved",
   "theorems": [
    "Falwa.QGAnalysis.C85_heat_flux"
   ],
   "note": "Both hemispheres."
  },
  {
   "property": "C86",
   "status": "partial",
   "theorems": [
    "Falwa.QGAnalysis.C86_north_partial",
    "Falwa.QGAnalysis.C86_south_partial",
    "Falwa.QGAnalysis.C86_off_contour_partial",
    "Falwa.QGAnalysis.C86_refuted"
   ],
   "note": "Refuted: poleward cells exactly on the contour are counted, so a wave-free state with a source has nonzero ncforce_baro. Proved with the exact extra term in both hemispheres, and as stated when no cell lies on the contour."
  },
  {
   "property": "C87",
   "status": "proved",
   "theorems": [
    "Falwa.QGAnalysis.C87_u_baro"
   ],
   "note": "All rows, both modes."
  },
  {
   "property": "C88",
   "status": "proved",
   "theorems": [
    "Falwa.QGAnalysis.C88_averages",
    "Falwa.QGAnalysis.C88_lwa"
   ],
   "note": "All six terms; no assumption for the averages, a valid grid for the pointwise wave activity."
  },
  {
   "property": "C89",
   "status": "partial",
   "theorems": [
    "Falwa.QGAnalysis.C89_average_partial",
    "Falwa.QGAnalysis.C89_documented_partial",
    "Falwa.QGAnalysis.C89_refuted"
   ],
   "note": "Refuted: the two highest levels contribute. Proved with the exact boundary terms for every field, and as stated when the two highest levels carry no heat transport and the stability of the low levels is the difference quotient."
  },
  {
   "property": "C90",
   "status": "partial",
   "theorems": [
    "Falwa.QGAnalysis.C90_divergence_partial",
    "Falwa.QGAnalysis.C90_calm_top_partial",
    "Falwa.QGAnalysis.C90_refuted"
   ],
   "note": "Refuted: flux_vector_phi_baro includes the highest level and the divergence does not. Proved with the exact difference, and as stated for a calm highest level."
  },
  {
   "property": "C91",
   "status": "proved",
   "theorems": [
    "Falwa.VertGrid.C91_linear",
    "Falwa.VertGrid.C91_between",
    "Falwa.VertGrid.C91_affine"
   ],
   "note": "interp1d is modelled as its linear method with extrapolation."
  },
  {
   "property": "C92",
   "status": "partial",
   "theorems": [
    "Falwa.VertGrid.C92_top_partial",
    "Falwa.VertGrid.C92_range_partial",
    "Falwa.VertGrid.C92_ground_partial",
    "Falwa.VertGrid.C92_below_partial",
    "Falwa.VertGrid.C92_refuted"
   ],
   "note": "Refuted: data that start above the ground are extrapolated downward. Proved for levels at or above the lowest data level, for all levels when the data reach 1000 hPa, and that no level lies above the data."
  },
  {
   "property": "C93",
   "status": "proved",
   "theorems": [
    "Falwa.C93_affine",
    "Falwa.C93_linear"
   ],
   "note": "All ascending grids with at least two rows."
  },
  {
   "property": "C94",
   "status": "partial",
   "theorems": [
    "Falwa.C94_equator_partial",
    "Falwa.C94_smoothing_partial",
    "Falwa.C94_refuted"
   ],
   "note": "Proved on grids with equator. Refuted on even grids: there inner rows come back as the 1-2-1 mean of three rows (proved for grids of equal strips of any size)."
  },
  {
   "property": "C95",
   "status": "proved",
   "theorems": [
    "Falwa.VertGrid.C95_poisson",
    "Falwa.VertGrid.C95_adiabat"
   ],
   "note": "Poisson's formula at every data level (C95_poisson) and the constant column of a dry-adiabatic atmosphere after vertical interpolation (C95_adiabat), over the reals."
  },
  {
   "property": "C96",
   "status": "proved",
   "theorems": [
    "Falwa.Atmos.C96_range",
    "Falwa.Atmos.C96_uniform",
    "Falwa.Atmos.C96_area_mean"
   ],
   "note": "For odd grids with the equator in the middle and at least two rows per cap."
  },
  {
   "property": "C97",
   "status": "partial",
   "theorems": [
    "Falwa.C97_unmasked_partial",
    "Falwa.C97_refuted"
   ],
   "note": "Refuted: the data under the mask are used. Proved only for arrays in which nothing is masked."
  },
  {
   "property": "C98",
   "status": "partial",
   "theorems": [
    "Falwa.Atmos.C98_nhn22_partial",
    "Falwa.Atmos.C98_nh18_partial",
    "Falwa.Atmos.C98_refuted"
   ],
   "note": "Proved for NHN22. For NH18 proved with the factor zonal mean absolute vorticity over f, and the stated form refuted."
  },
  {
   "property": "C99",
   "status": "proved",
   "theorems": [
    "Falwa.Legacy.C99_system"
   ],
   "note": "For both lower boundary conditions: the assembled triplets (duplicates add up) and assigned right-hand sides hold for a vector iff the padded field solves the boundary value problem of Spec/Legacy.lean."
  },
  {
   "property": "C100",
   "status": "partial",
   "theorems": [
    "Falwa.Legacy.C100_unique_partial",
    "Falwa.Legacy.C100_unique_solution_partial",
    "Falwa.Legacy.C100_refuted"
   ],
   "note": "Existence and uniqueness (maximum principle and finite dimension): no-slip for kmax >= 3, adiabatic for kmax >= 4. C100_refuted: with three levels and the adiabatic condition there may be no solution, as top and bottom conditions fix the same difference."
  },
  {
   "property": "C101",
   "status": "proved",
   "theorems": [
    "Falwa.Legacy.C101_no_waves",
    "Falwa.Legacy.C101_superposition"
   ],
   "note": "Stated for every vector that solves the system; existence is C100. The southern half of the returned arrays is zero by construction and not part of the claim."
  },
  {
   "property": "C102",
   "status": "partial",
   "theorems": [
    "Falwa.Legacy.C102_gaussian_partial",
    "Falwa.Legacy.C102_ends_partial",
    "Falwa.Legacy.C102_refuted"
   ],
   "note": "Zero at input latitudes that are solver latitudes. C102_refuted: at the equator (and pole) the reference wind is the zonal mean wind (C102_ends_partial)."
  },
  {
   "property": "C103",
   "status": "partial",
   "theorems": [
    "Falwa.Legacy.C103_shifted_partial",
    "Falwa.Legacy.C103_mean_partial",
    "Falwa.Legacy.C103_differs_partial",
    "Falwa.Legacy.C103_refuted"
   ],
   "note": "C103_refuted: the factor is taken from the row above (gl[j-1] belongs to row j of the padded grid); C103_differs_partial: it fails wherever there is shear. Proved: the shifted relation and the zero mean."
  },
  {
   "property": "C104",
   "status": "partial",
   "theorems": [
    "Falwa.C104_linear",
    "Falwa.C104_bounded_partial",
    "Falwa.C104_interior_partial",
    "Falwa.C104_zero_at_pole",
    "Falwa.C104_refuted"
   ],
   "note": "Linearity in vgrad is proved. The range law is refuted: for every non-constant field the value at -90 degrees is 0 (C104_zero_at_pole). Proved instead: the range extended by 0 holds everywhere, and the range itself holds between the third and the last but one equivalent latitude when no bin is empty."
  },
  {
   "property": "C105",
   "status": "partial",
   "theorems": [
    "Falwa.C105_offset_partial",
    "Falwa.C105_always_changes",
    "Falwa.C105_refuted",
    "Falwa.C105_uniform_field"
   ],
   "note": "Refuted; the exact effect of an offset is proved, a non-zero offset changes every row but the first and last, and a constant field has wave activity -q times the cap area over 2 pi a."
  },
  {
   "property": "C106",
   "status": "proved",
   "theorems": [
    "Falwa.C106_scale_field",
    "Falwa.C106_scale_length",
    "Falwa.C106_rotate_circles"
   ],
   "note": "Amplitude, unit of length (radius and areas together, non-zero radius) and independent rotation of every circle of latitude."
  },
  {
   "property": "C107",
   "status": "proved",
   "theorems": [
    "Falwa.Atmos.C107_fields",
    "Falwa.Atmos.C107_reference_states",
    "Falwa.Atmos.C107_wave_activity",
    "Falwa.Atmos.C107_fluxes",
    "Falwa.Atmos.C107_tendencies",
    "Falwa.Atmos.C107_convergence",
    "Falwa.C107_column",
    "Falwa.C107_column_homogeneous",
    "Falwa.C107_latitude_homogeneous"
   ],
   "note": "Units of length L and frequency F, all stages of both classes. The interpolations in latitude and height are parameters that map multiples to multiples; C107_column, C107_column_homogeneous and C107_latitude_homogeneous show this for the linear interpolations of the code. The spline derivative is a parameter taken per unit of length; the LAPACK inverse is a parameter applied to the same matrix. The unit of temperature is kept: UnivariateSpline(x, y) smooths with an absolute default factor, so a change of the temperature unit is not covered."
  },
  {
   "property": "C108",
   "status": "proved",
   "theorems": [
    "Falwa.C108_object_agrees_with_function",
    "Falwa.C108_value"
   ],
   "note": "Equality of both attributes with the two results of the function for all option values; explicit sum for the default arguments on all rows but the last (which basis.lwa never computes, C02)."
  },
  {
   "property": "C109",
   "status": "partial",
   "theorems": [
    "Falwa.C109_rows",
    "Falwa.C109_theta_rows",
    "Falwa.C109_refuted",
    "Falwa.C109_bounds_partial",
    "Falwa.C109_covering"
   ],
   "note": "Refuted for grids with a row on the equator (odd nlat): that row is zero in profile and wave activity for every field. Proved for all other rows, hence for all rows if nlat is even; proved for all rows if nlat_s is given with 2 nlat_s >= nlat."
  },
  {
   "property": "C110",
   "status": "proved",
   "theorems": [
    "Falwa.C110_ncforce",
    "Falwa.C110_plain",
    "Falwa.C110_theta",
    "Falwa.C110_given_profile",
    "Falwa.C110_options"
   ],
   "note": "One theorem per wrapper; the specification sums over absolute row numbers of the whole grid."
  },
  {
   "property": "C111",
   "status": "proved",
   "theorems": [
    "Falwa.Atmos.C111_fields",
    "Falwa.Atmos.C111_reference_states",
    "Falwa.Atmos.C111_wave_activity",
    "Falwa.Atmos.C111_fluxes",
    "Falwa.C111_column",
    "Falwa.C111_latitude"
   ],
   "note": "Whole computation of both classes, both hemispheres. The smoothing splines are parameters: they are assumed to move with a constant added to the data. For both linear interpolations this is proved (C111_column, C111_latitude)."
  },
  {
   "property": "C112",
   "status": "proved",
   "theorems": [
    "Falwa.RefIn.C112_converges",
    "Falwa.RefIn.C112_stops",
    "Falwa.RefIn.C112_stops_iff",
    "Falwa.RefIn.C112_limit"
   ],
   "note": "Over the reals. The energy of the error does not increase in a sweep since the points of one colour do not interact and the relaxation factors stay in [1, 2/(2-rjac^2)]. If the right-hand side is zero at all interior points the criterion 'anorm < 0' is never met, so no convergence is reported however small the residual is."
  },
  {
   "property": "C113",
   "status": "partial",
   "theorems": [
    "Falwa.RefIn.C113_half_partial",
    "Falwa.RefIn.C113_unbounded",
    "Falwa.RefIn.C113_refuted"
   ],
   "note": "Refuted: the criterion is evaluated on the points treated in the sweep only, one half of the points, before their update. For every tolerance and every factor there is an input that stops after two sweeps with a residual larger than the factor times the sum of the right-hand sides. What holds: the bound for the points treated in the last sweep."
  },
  {
   "property": "C114",
   "status": "proved",
   "theorems": [
    "Falwa.C114_lipschitz",
    "Falwa.C114_average",
    "Falwa.QGAnalysis.C114_qg_lipschitz",
    "Falwa.QGAnalysis.C114_qg_average",
    "Falwa.QGAnalysis.C114_qg_baro"
   ],
   "note": "The contribution of ncforce is not covered: it is selected by the sign of the PV anomaly and jumps."
  },
  {
   "property": "C115",
   "status": "proved",
   "theorems": [
    "Falwa.C115_contour_exists_unique",
    "Falwa.EqvInput.C115_within_interval",
    "Falwa.EqvInput.C115_beyond_total",
    "Falwa.EqvInput.C115_limit"
   ],
   "note": "Over the reals. Latitudes outside [-90, 90] are excluded."
  },
  {
   "property": "C116",
   "status": "proved",
   "theorems": [
    "Falwa.EqvInput.C116_order",
    "Falwa.EqvInput.C116_stability",
    "Falwa.C116_barotropic",
    "Falwa.EqvInput.C116_jump"
   ],
   "note": "C116_jump shows that the profile is not continuous in the field, so the bound without the intervals is false."
  },
  {
   "property": "C117",
   "status": "proved",
   "theorems": [
    "Falwa.RefIn.C117_wind_nh18",
    "Falwa.RefIn.C117_qgpv_nh18",
    "Falwa.RefIn.C117_temperature_nh18",
    "Falwa.NhnIn.C117_wind_nhn22",
    "Falwa.NhnIn.C117_qgpv_nhn22",
    "Falwa.NhnIn.C117_temperature_nhn22"
   ],
   "note": "About the hemispheric solver calls, rows counted from the equator. The equatorward row of the NHN22 wind is C78."
  },
  {
   "property": "C118",
   "status": "proved",
   "theorems": [
    "Falwa.C118_nonneg",
    "Falwa.C118_components",
    "Falwa.C118_total",
    "Falwa.C118_zero_iff"
   ],
   "note": "Rounding of every operation of basis.lwa is explicit (Model/Rounding.lean); overflow, NaN and gradual underflow are outside the model for the relative error. The sign claim needs only a rounding that keeps signs."
  },
  {
   "property": "C119",
   "status": "proved",
   "theorems": [
    "Falwa.C119_lwa",
    "Falwa.C119_limit",
    "Falwa.QGAnalysis.C119_qg_north",
    "Falwa.QGAnalysis.C119_qg_south"
   ],
   "note": "For the NHN22 and NH18 classes the reference value used is whatever the solver returned; its error enters the bound."
  },
  {
   "property": "C120",
   "status": "proved",
   "theorems": [
    "Falwa.C120_zonal_convergence",
    "Falwa.C120_meridional_divergence",
    "Falwa.C120_curl",
    "Falwa.Atmos.C120_vorticity",
    "Falwa.Atmos.C120_stretching",
    "Falwa.Atmos.C120_qgpv"
   ],
   "note": "The vorticity converges to the stated limit for every grid; this limit is the true vorticity only on grids with equal spacings (C80). NH18 multiplies the stretching by the zonal mean absolute vorticity (C81)."
  },
  {
   "property": "C121",
   "status": "proved",
   "theorems": [
    "Falwa.Atmos.C121_qgpv",
    "Falwa.Atmos.C121_local_results",
    "Falwa.Atmos.C121_convergence"
   ],
   "note": ""
  },
  {
   "property": "C122",
   "status": "partial",
   "theorems": [
    "Falwa.QGArgs.C122_accepted_partial",
    "Falwa.QGArgs.C122_winds_partial",
    "Falwa.QGArgs.C122_value_error",
    "Falwa.QGArgs.C122_refuted"
   ],
   "note": "Violated for t_field: it is broadcast against the levels before its shape is checked, so (nlat, nlon) and (1, nlat, nlon) are accepted, and other shapes can raise ValueError. Proved: exactly which shapes are accepted, and TypeError for the winds."
  },
  {
   "property": "C123",
   "status": "proved",
   "theorems": [
    "Falwa.QGArgs.C123_same"
   ],
   "note": "Equality of the results of both constructors, errors included, and of the normalisation (C123_same), for exact arithmetic; levels that are only approximately 0, dz, 2 dz, ... are outside the hypothesis."
  },
  {
   "property": "C124",
   "status": "partial",
   "theorems": [
    "Falwa.QGArgs.C124_positive_partial",
    "Falwa.QGArgs.C124_descending_partial",
    "Falwa.QGArgs.C124_few_levels",
    "Falwa.QGArgs.C124_refuted"
   ],
   "note": "Violated in two ways: with the flag for evenly spaced data nothing checks that the levels ascend, and fewer than three levels give zero. Proved: positive with three levels or more and ascending levels; with the flag exactly if the first two pressures descend."
  },
  {
   "property": "C125",
   "status": "partial",
   "theorems": [
    "Falwa.QGArgs.C125_cubic_partial",
    "Falwa.QGArgs.C125_smoothed",
    "Falwa.QGArgs.C125_close_partial",
    "Falwa.QGArgs.C125_missed",
    "Falwa.QGArgs.C125_refuted"
   ],
   "note": "Violated: UnivariateSpline smooths by default (s = number of levels). Proved: exact for profiles that are cubic in height, one cubic for all profiles within 1 K of a cubic, deviation at most the root of 1.001 times the number of levels. The spline is represented by a contract (Model/Spline.lean), which is shown to be satisfiable."
  },
  {
   "property": "C126",
   "status": "partial",
   "theorems": [
    "Falwa.C126_middle_partial",
    "Falwa.C126_forcing_refused",
    "Falwa.C126_refuted",
    "Falwa.C126_even_partial",
    "Falwa.C126_no_loss"
   ],
   "note": "Violated: in northern-only mode compute_ncforce_from_heating_rate computes the forcing on all latitudes but ncforce is registered on the reported ones, so every call ends in AssertionError. Proved: all other variables in both modes; the forcing in global mode; grids without equator; the number of elements is preserved whenever a call returns."
  },
  {
   "property": "C127",
   "status": "proved",
   "theorems": [
    "Falwa.C127_minimal_iff",
    "Falwa.EqvInput.C127_computed_profile",
    "Falwa.C127_barotropic",
    "Falwa.QGAnalysis.C127_qg_north",
    "Falwa.QGAnalysis.C127_qg_south"
   ],
   "note": "Exact characterisation for basis.lwa and for the QG loops of both hemispheres; the computed profile is optimal up to range times area mismatch; explicit bound for BarotropicField with default areas on regular grids."
  },
  {
   "property": "C128",
   "status": "proved",
   "theorems": [
    "Falwa.C128_upper",
    "Falwa.C128_lower",
    "Falwa.QGAnalysis.C128_qg_north_upper",
    "Falwa.QGAnalysis.C128_qg_south_upper",
    "Falwa.QGAnalysis.C128_qg_north_lower",
    "Falwa.QGAnalysis.C128_qg_south_lower"
   ],
   "note": "Upper and lower bounds for basis.lwa and for the QG loops of both hemispheres."
  },
  {
   "property": "C129",
   "status": "proved",
   "theorems": [
    "Falwa.EqvInput.C129_zonal_mean",
    "Falwa.C129_regular"
   ],
   "note": "General bound with the total circulation, the contour area and the grid error in it, and the explicit bound on regular grids."
  },
  {
   "property": "C130",
   "status": "partial",
   "theorems": [
    "Falwa.FluxIn.C130_parts_partial",
    "Falwa.FluxIn.C130_lwa_partial",
    "Falwa.FluxIn.C130_ua1_partial",
    "Falwa.FluxIn.C130_ua2_partial",
    "Falwa.FluxIn.C130_ncforce_partial",
    "Falwa.FluxIn.C130_ep14_partial",
    "Falwa.FluxIn.C130_ep23_partial",
    "Falwa.FluxIn.C130_northern_row",
    "Falwa.FluxIn.C130_wrong_level",
    "Falwa.FluxIn.C130_refuted"
   ],
   "note": "Violated (FluxIn.C130_refuted). Proved: the wave activity differs exactly by the anomaly of the row itself times its length element, F1 and F2 by the corresponding terms, the forcing by that of the row itself (no point exactly on the contour); ep1 and ep4 agree; ep2 and ep3 agree with roles and signs exchanged except on row jb, which holds northern winds, and on row nd-jb of ep2, which reads a reference wind of the next level; compute_lwa_only_nhn22 returns the same wave activity and its column average; QGField.lwa in terms of the southern branch."
  },
  {
   "property": "C131",
   "status": "proved",
   "theorems": [
    "Falwa.AreaIn.C131_circulation",
    "Falwa.AreaIn.C131_split",
    "Falwa.AreaIn.C131_omitted",
    "Falwa.NhnIn.C131_fawa",
    "Falwa.RefIn.C131_boundary",
    "Falwa.Atmos.C131_mean"
   ],
   "note": "AreaIn.C131_circulation, C131_split and C131_omitted for the area analysis, NhnIn.C131_fawa for compute_qref_and_fawa_first, Atmos.C131_mean for QGFieldNHN22 from the input fields on, RefIn.C131_boundary for the boundary condition of QGFieldNH18. The grid error is explicit: dq times the area of the sphere, 2 pi a^2 dphi (qmax - qmin) cos(phi), and dphi^2/20 |qref| times the area of the cap."
  },
  {
   "property": "C132",
   "status": "partial",
   "theorems": [
    "Falwa.NhnIn.C132_determined_partial",
    "Falwa.NhnIn.C132_rows_partial",
    "Falwa.NhnIn.C132_pole",
    "Falwa.NhnIn.C132_refuted"
   ],
   "note": "Violated (NhnIn.C132_refuted): cref and cbar are local arrays without initial value, but line 157 reads all of their elements. Proved: an element is determined exactly if the level is interior and the row lies between equator and pole and is placed by the area analysis; the row of the pole and the lowest and highest levels never are."
  },
  {
   "property": "C133",
   "status": "partial",
   "theorems": [
    "Falwa.LwaIn.C133_sum_error_partial",
    "Falwa.LwaIn.C133_column_error_partial",
    "Falwa.LwaIn.C133_cyclonic_partial",
    "Falwa.LwaIn.C133_anticyclonic_partial",
    "Falwa.LwaIn.C133_lower_partial",
    "Falwa.LwaIn.C133_error_partial",
    "Falwa.LwaIn.C133_pole_weight",
    "Falwa.LwaIn.C133_negative",
    "Falwa.LwaIn.C133_negative_column",
    "Falwa.LwaIn.C133_refuted"
   ],
   "note": "Violated (LwaIn.C133_refuted): acos(-1.) rounds to a number above pi, so the computed latitude of the pole is above pi/2 and its weight is negative (C133_pole_weight, grids of 1 and 1.5 degrees). Where only the pole is displaced the level value and the column average are negative (C133_negative, C133_negative_column). Proved in every arithmetic with bounded relative error: the cyclonic part is never negative, the anticyclonic part only if PV at the pole is below the reference value, and then only by a few rounding errors; both parts, their sum and the column average are within explicit errors of their exact values (C133_error_partial, C133_sum_error_partial, C133_column_error_partial). lwa of compute_lwa_only takes the absolute value."
  },
  {
   "property": "C134",
   "status": "partial",
   "theorems": [
    "Falwa.C134_accepts_iff",
    "Falwa.C134_length",
    "Falwa.C134_exact_partial",
    "Falwa.C134_dyadic_partial",
    "Falwa.C134_fifty",
    "Falwa.C134_refuted"
   ],
   "note": "Violated (C134_refuted): z=np.arange(0, kmax*dz, dz) has kmax+1 elements if kmax*dz is rounded up by enough, and the f2py wrapper then refuses statn. This happens with 49 levels spaced by 750.0000000000002 m (C134_fifty), the spacing that 49 pressure levels of 750 m pseudoheight have in double precision. Proved: the call fails exactly in this case (C134_accepts_iff), the length is always kmax or kmax+1 (C134_length), and spacings n*2^e with kmax*n < 2^53, in particular whole metres, are accepted (C134_dyadic_partial)."
  },
  {
   "property": "C135",
   "status": "partial",
   "theorems": [
    "Falwa.Alias.C135_even_partial",
    "Falwa.Alias.C135_replaced_partial",
    "Falwa.Alias.C135_follows",
    "Falwa.Alias.C135_tuple_follows",
    "Falwa.Alias.C135_refuted"
   ],
   "note": "Refuted (C135_refuted): with an equator in the grid, properties return views of storage that later calls overwrite; ncforce_baro of a first computation turns into that of the second. C135_even_partial: true for all properties on even grids. C135_replaced_partial: true on all grids for qref and for properties whose arrays are replaced (qgpv, interpolated fields, convergence, divergence, flux vectors). C135_follows: on grids with an equator the other properties always show the present values. C135_tuple_follows: so do lwa_baro and u_baro of the tuple returned by compute_lwa_and_barotropic_fluxes, on every grid."
  },
  {
   "property": "C136",
   "status": "partial",
   "theorems": [
    "Falwa.Alias.C136_even_partial",
    "Falwa.Alias.C136_leaks",
    "Falwa.Alias.C136_refuted"
   ],
   "note": "Refuted (C136_refuted) with uref on a grid with an equator. C136_even_partial: proved for all sessions on even grids, for the object and for all later reads. C136_leaks: with an equator every edit of an array just read is what the property returns from then on."
  },
  {
   "property": "C137",
   "status": "proved",
   "theorems": [
    "Falwa.Alias.C137_inputs_unchanged"
   ],
   "note": "C137_inputs_unchanged, for all sessions without edits by the user, including calls that stop at any statement."
  },
  {
   "property": "C138",
   "status": "partial",
   "theorems": [
    "Falwa.Alias.C138_copied_partial",
    "Falwa.Alias.C138_shared",
    "Falwa.Alias.C138_refuted"
   ],
   "note": "Refuted (C138_refuted): with an equator u_field is kept by reference, so a change before interpolate_fields changes the result. C138_copied_partial: proved for t_field on all grids and for u_field, v_field on even grids. C138_shared: u_field, v_field with an equator and ylat on all grids are shared."
  },
  {
   "property": "C139",
   "status": "partial",
   "theorems": [
    "Falwa.Atmos.C139_qref",
    "Falwa.Atmos.C139_nh18_uref",
    "Falwa.Atmos.C139_nh18_ptref_partial",
    "Falwa.Atmos.C139_nhn22_reference",
    "Falwa.Atmos.C139_lwa_partial",
    "Falwa.Atmos.C139_fluxes_partial",
    "Falwa.Atmos.C139_convergence_partial",
    "Falwa.Atmos.C139_nhn22_equator",
    "Falwa.Atmos.C139_equator_condition",
    "Falwa.Atmos.C139_jet",
    "Falwa.Atmos.C139_refuted"
   ],
   "note": "Violated at the equator (C139_refuted): in global mode the southern call writes the equator last, so for a northern jet lwa there is 0 with the option off and positive with the option on (C139_jet); the two agree there exactly if the hemispheric calls do (C139_equator_condition). Proved: qref agrees on every row in both classes (C139_qref), uref of NH18 on every row (C139_nh18_uref), ptref of NH18 off the equator, uref and ptref of NHN22 on every row (C139_nhn22_reference); all outputs of the flux computation agree off the equator (C139_lwa_partial, C139_fluxes_partial, C139_convergence_partial), and for NHN22 with eq_boundary_index >= 2 at the equator too (C139_nhn22_equator)."
  },
  {
   "property": "C140",
   "status": "partial",
   "theorems": [
    "Falwa.AreaIn.C140_range_partial",
    "Falwa.AreaIn.C140_neighbour",
    "Falwa.AreaIn.C140_nested",
    "Falwa.AreaIn.C140_first",
    "Falwa.AreaIn.C140_constant",
    "Falwa.AreaIn.C140_refuted",
    "Falwa.AreaIn.C140_single_partial",
    "Falwa.AreaIn.C140_inside_partial"
   ],
   "note": "Violated on constant levels (C140_refuted, C140_constant): dq = 0 and the index is int(0/0), which the language does not define. Proved for every level that is not constant and u(4(npart-1)+2) <= 1: the index lies in 1..npart (C140_range_partial), is at most one away from the exact index (C140_neighbour), the largest value is in partition 1 (C140_first) and larger values are never in a later partition if rounding is monotone (C140_nested; round to nearest is, roundBits_mono). C140_single_partial is the case of single precision, C140_inside_partial combines it with C141. Missing: constant levels; overflow and denormal numbers are not modelled."
  },
  {
   "property": "C141",
   "status": "partial",
   "theorems": [
    "Falwa.Bounds.RefDims.C141_reference",
    "Falwa.Bounds.RefDims.C141_reference_iff",
    "Falwa.Bounds.FawaDims.C141_fawa",
    "Falwa.Bounds.FawaDims.C141_fawa_iff",
    "Falwa.Bounds.InvDims.C141_inversion",
    "Falwa.Bounds.InvDims.C141_inversion_iff",
    "Falwa.Bounds.PvDims.C141_qgpv18",
    "Falwa.Bounds.PvDims.C141_qgpv22",
    "Falwa.Bounds.PvDims.C141_qgpv_iff",
    "Falwa.Bounds.FluxDims.C141_lwa",
    "Falwa.Bounds.FluxDims.C141_lwa_iff",
    "Falwa.Bounds.FluxDims.C141_flux_north",
    "Falwa.Bounds.FluxDims.C141_flux_south",
    "Falwa.Bounds.FluxDims.C141_flux_never",
    "Falwa.Bounds.C141_refuted",
    "Falwa.Bounds.C141_offcentre",
    "Falwa.Bounds.C141_refuted_direct",
    "Falwa.Bounds.C141_accepted_partial",
    "Falwa.Bounds.C141_accepted_direct_partial"
   ],
   "note": "Violated on accepted grids. compute_reference_states is compiled for jd = equator_idx rows; with more rows south of the equator than north or the reverse the loops over jd and nlat do not fit (C141_refuted: 13 rows from 30S to 90N; C141_offcentre: every evenly spaced grid with more rows north than south). The NHN22 routines leave their arrays on coarse grids (C141_refuted_direct: 15 degrees with the default boundary index). Exact conditions: C141_reference_iff (3 <= jd, 3 <= kmax, nlat <= 2jd-1), C141_fawa_iff, C141_inversion_iff, C141_qgpv_iff, C141_lwa_iff, C141_flux_north, C141_flux_south, C141_flux_never; in terms of the grid: C141_accepted_partial and C141_accepted_direct_partial. Whether the Python code raises between two calls (e.g. dgetrf on an empty matrix) is not modelled."
  },
  {
   "property": "C142",
   "status": "partial",
   "theorems": [
    "Falwa.AreaIn.C142_pole",
    "Falwa.AreaIn.C142_negative_partition",
    "Falwa.AreaIn.C142_cell_partial",
    "Falwa.AreaIn.C142_interior_partial",
    "Falwa.AreaIn.C142_partition_partial",
    "Falwa.AreaIn.C142_cumulative_partial",
    "Falwa.AreaIn.C142_refuted",
    "Falwa.AreaIn.C142_negative_area"
   ],
   "note": "Violated at the south pole (C142_pole, C142_refuted): single precision pi is larger than pi, so cos(-0.5*pi) < 0 and the cell area is negative on every grid; a partition that consists of south pole cells has a negative area (C142_negative_partition, C142_negative_area). Proved: rows other than the poles have positive areas (C142_interior_partial), error bounds for cells (C142_cell_partial), partitions (C142_partition_partial) and cumulative areas (C142_cumulative_partial), relative to the cells that the computed indices put there. Missing: the row of the north pole, whose sign depends on dphi."
  },
  {
   "property": "C143",
   "status": "partial",
   "theorems": [
    "Falwa.C143_accepted_iff",
    "Falwa.C143_upper_partial",
    "Falwa.C143_lower",
    "Falwa.C143_never",
    "Falwa.C143_refuted",
    "Falwa.C143_exact_partial",
    "Falwa.C143_linspace_input"
   ],
   "note": "Violated (C143_refuted): np.linspace(-90, 90, n+1) has no zero for n = 78*2**j (C143_never), and for the other n found by the integer criterion C143_lower (156, 312, 322, 338, 350, 624, ...); the constructor then raises IndexError. Proved: exact condition for acceptance and position of the equator (C143_accepted_iff), all n = 2m with m in (45/32*2**k, 2**(k+1)] accepted (C143_upper_partial), all m dividing 90*2**j accepted (C143_exact_partial). A user grid np.linspace(-90, 90, 2m+1) is accepted under the same condition and raises TypeError otherwise (C143_linspace_input). Not decided: the ties 2*|r| = 2**k of C143_lower, which depend on the tie rule."
  },
  {
   "property": "C144",
   "status": "proved",
   "theorems": [
    "Falwa.C144_profile",
    "Falwa.C144_limit",
    "Falwa.C144_wave_activity"
   ],
   "note": "Exact comparison of the areas of the rows with the polar caps on every regular grid (rows_le_cap, cap_lt_rows). In the first row (south pole, no area) the profile is the value of the second row up to the same error."
  },
  {
   "property": "C145",
   "status": "partial",
   "theorems": [
    "Falwa.AreaIn.C145_pole_row",
    "Falwa.AreaIn.C145_upper",
    "Falwa.AreaIn.C145_lower",
    "Falwa.AreaIn.C145_profile_partial",
    "Falwa.AreaIn.C145_shift_partial",
    "Falwa.AreaIn.C145_displaced_partial",
    "Falwa.AreaIn.C145_refuted",
    "Falwa.AreaIn.C145_unassigned",
    "Falwa.Atmos.C145_north_partial",
    "Falwa.Atmos.C145_south_partial",
    "Falwa.Atmos.C145_wave_north_partial",
    "Falwa.Atmos.C145_wave_south_partial"
   ],
   "note": "Refuted in general: the area analysis leaves out the first partition, so values are displaced by a row (C145_refuted) or unassigned (C145_unassigned). Proved: the value is that of the zonal state in the row K in which the cap of the row and the first partition together end, up to e and two intervals (C145_profile_partial); if only s+1 rows poleward of 45 degrees reach into the first partition, the displacement is at most s rows (C145_shift_partial, both classes and hemispheres); for s = 0 this is the full claim. C145_displaced_partial: a flat state next to the pole is always displaced. Wave activity is bounded with that error."
  },
  {
   "property": "C146",
   "status": "partial",
   "theorems": [
    "Falwa.NhnIn.C146_rows_partial",
    "Falwa.NhnIn.C146_westerly_partial",
    "Falwa.NhnIn.C146_response",
    "Falwa.NhnIn.C146_pole",
    "Falwa.NhnIn.C146_refuted",
    "Falwa.RefIn.C146_iterative_partial"
   ],
   "note": "Refuted at the pole (C146_refuted, C146_pole): the wind of the pole row is extrapolated linearly from the two rows before it and can decrease when the shear in the first of them grows. Proved for all other rows and levels of the direct solver (C146_rows_partial), with sign corollary (C146_westerly_partial), and for the limits of the iteration (C146_iterative_partial). C146_response bounds the change of u cos(lat) by the changes of circulation, QGPV gradient and temperature, with constants that do not depend on the latitude spacing. Missing: iterates after finitely many sweeps, and C146_rows_partial needs the matrix inversion to be exact."
  },
  {
   "property": "C147",
   "status": "proved",
   "theorems": [
    "Falwa.Grl.C147_smoothing",
    "Falwa.Grl.C147_residual",
    "Falwa.Grl.C147_closed",
    "Falwa.Grl.C147_zonal"
   ],
   "note": ""
  },
  {
   "property": "C148",
   "status": "partial",
   "theorems": [
    "Falwa.Grl.C148_defect",
    "Falwa.Grl.C148_inner_partial",
    "Falwa.Grl.C148_refuted",
    "Falwa.Grl.C148_last"
   ],
   "note": "Refuted (C148_refuted): the loop over columns leaves out the first and the last column, so their zonal convergence is zero and the smoothing spreads the error over the neighbouring columns. C148_defect gives the exact residual in every column; C148_inner_partial proves the statement for columns whose smoothing does not reach the two columns. C148_last: the last slot drawn uses the slot after it, which the sample script never writes."
  },
  {
   "property": "C149",
   "status": "proved",
   "theorems": [
    "Falwa.Grl.C149_sum",
    "Falwa.Grl.C149_reconstruction",
    "Falwa.Grl.C149_figures"
   ],
   "note": "C149_reconstruction needs the sum of the smoothed wave activity of neighbouring slots to be nonzero, as the script divides by it."
  },
  {
   "property": "C150",
   "status": "partial",
   "theorems": [
    "Falwa.Leap.C150_first",
    "Falwa.Leap.C150_second_partial",
    "Falwa.Leap.C150_equal",
    "Falwa.Leap.C150_zonal",
    "Falwa.Leap.C150_changed",
    "Falwa.Leap.C150_refuted"
   ],
   "note": "Refuted (C150_refuted): line 1071 starts the step of the last column of dlwap2 from dlwap. C150_first proves the statement for dlwap; C150_second_partial for dlwap2 in all other columns and gives the exact extra term in the last one; C150_equal if both changes of the damping agree; C150_zonal the zonal budgets; C150_changed that wave activity plus perturbation follows the budget with the changed damping."
  },
  {
   "property": "C151",
   "status": "proved",
   "theorems": [
    "Falwa.C151_change",
    "Falwa.C151_interpolation",
    "Falwa.C151_constant",
    "Falwa.C151_centre",
    "Falwa.C151_bounds"
   ],
   "note": ""
  },
  {
   "property": "C152",
   "status": "partial",
   "theorems": [
    "Falwa.F2py.C152_keywords",
    "Falwa.F2py.C152_values",
    "Falwa.F2py.C152_errors",
    "Falwa.F2py.C152_package_partial",
    "Falwa.F2py.C152_positional",
    "Falwa.F2py.C152_dirinv",
    "Falwa.F2py.C152_refuted",
    "Falwa.F2py.C152_script"
   ],
   "note": "Refuted (C152_refuted): _compute_lwa_flux_dirinv does not pass the required argument ncforce, so it raises TypeError for all values (C152_dirinv), and the sample script of Neal et al. (2022), which calls it for every slot, fails in its first slot and writes nothing (C152_script). C152_package_partial proves the statement for all other keyword calls, C152_positional for the two calls by position; C152_keywords characterises accepted keyword calls of any signature."
  },
  {
   "property": "C153",
   "status": "partial",
   "theorems": [
    "Falwa.Script.C153_order",
    "Falwa.Script.C153_predigest_partial",
    "Falwa.Script.C153_lubis_partial",
    "Falwa.Script.C153_sample_partial",
    "Falwa.Script.C153_lubis_mirrored",
    "Falwa.Script.C153_iff",
    "Falwa.Script.C153_refuted"
   ],
   "note": "Refuted (C153_refuted). The scripts of Lubis et al. reverse the coordinates if needed but never the fields, that of Neal et al. reverses the fields always, the predigest script reverses both always. C153_order: order of the coordinates for every file; C153_iff: exactly which files are handed over correctly; C153_lubis_mirrored: what happens to a file from north to south. Longitudes are not modelled; no script touches their order."
  },
  {
   "property": "C154",
   "status": "partial",
   "theorems": [
    "Falwa.Script.Hybrid.C154_where",
    "Falwa.Script.Hybrid.C154_below_partial",
    "Falwa.Script.Hybrid.C154_above_partial",
    "Falwa.Script.Hybrid.C154_gap",
    "Falwa.Script.Hybrid.C154_values",
    "Falwa.Script.Hybrid.C154_refuted"
   ],
   "note": "Refuted (C154_refuted): in the lower half of the lowest layer, above the ground, the array is NaN (C154_gap). C154_where gives the array exactly; C154_below_partial and C154_above_partial prove the rest; C154_values the statement about values. The Poisson filling below the topography is not modelled."
  },
  {
   "property": "C155",
   "status": "partial",
   "theorems": [
    "Falwa.C155_call",
    "Falwa.C155_independent",
    "Falwa.C155_sessions",
    "Falwa.C155_own_data",
    "Falwa.C155_guarded_partial",
    "Falwa.C155_complete_partial",
    "Falwa.C155_returned",
    "Falwa.C155_one_failure",
    "Falwa.C155_refuted"
   ],
   "note": "Refuted for the last clause (C155_refuted): an exception leaves the loop over the fields, so the fields after it keep the zeros of their constructor, and lwa, fluxes and reference states of the dataset are then read without error. C155_call: exact effect of every call; C155_independent and C155_sessions: first clause; C155_complete_partial: last clause for sessions without exceptions; C155_guarded_partial: for interpolated fields and layerwise terms in all sessions; C155_one_failure: after one failure of the solver in one field the fluxes of the whole dataset are refused for ever."
  },
  {
   "property": "C156",
   "status": "partial",
   "theorems": [
    "Falwa.Atmos.C156_qgpv",
    "Falwa.Atmos.C156_equator",
    "Falwa.Atmos.C156_bound_partial",
    "Falwa.Atmos.C156_reference_partial",
    "Falwa.Atmos.C156_identical_partial",
    "Falwa.Atmos.C156_refuted"
   ],
   "note": "Refuted for both classes (C156_refuted): the zonal gradient of v on the equator is QGPV of the same sign for both hemispheres. C156_qgpv: QGPV changes sign on all other rows; C156_equator: its value on the equator; C156_bound_partial: the wave activities differ by at most twice the equatorial QGPV times its area weight plus the asymmetry of the reference QGPV; C156_reference_partial and C156_identical_partial: equality of reference QGPV (with change of sign), lwa and lwa_baro on all rows if v on the equator does not depend on longitude."
  },
  {
   "property": "C157",
   "status": "partial",
   "theorems": [
    "Falwa.Xr.C157_accepted",
    "Falwa.Xr.C157_partial",
    "Falwa.Xr.C157_mixed",
    "Falwa.Xr.C157_missing",
    "Falwa.Xr.C157_labels",
    "Falwa.Xr.C157_refuted"
   ],
   "note": "Refuted (C157_refuted): a DataArray first and a Dataset second or third passes the type check and then is a ValueError (C157_mixed). C157_accepted: exact characterisation of the accepted calls and of the fields taken; C157_partial: the claim if the first argument is a dataset or the others are arrays; C157_missing: omitted fields are refused; C157_labels: in an accepted dataset the three fields have the same labels at the same indices."
  },
  {
   "property": "C158",
   "status": "partial",
   "theorems": [
    "Falwa.Plot.C158_common_scale",
    "Falwa.Plot.C158_accepted",
    "Falwa.Plot.C158_agree",
    "Falwa.Plot.C158_difference",
    "Falwa.Plot.C158_two",
    "Falwa.Plot.C158_partial",
    "Falwa.Plot.C158_none",
    "Falwa.Plot.C158_refuted"
   ],
   "note": "Refuted (C158_refuted): the factor None is a TypeError on the map (C158_none), equal constant fields are refused, negative fields get the greatest modulus instead of the greatest value. C158_accepted: exact characterisation of the calls that draw; C158_common_scale; C158_agree: both functions agree for factors other than 0; C158_difference: larger differences are left blank, C158_two: none with factor 2 or more; C158_partial: the claim for data whose greatest value is the greatest modulus."
  },
  {
   "property": "C159",
   "status": "proved",
   "theorems": [
    "Falwa.C159_reference_exists",
    "Falwa.C159_profile",
    "Falwa.C159_analysis"
   ],
   "note": "C159_reference_exists: existence and uniqueness of the value that encloses an area, for every continuous field; C159_profile: the reference value tends to it; C159_analysis: existence, uniqueness, both accesses succeed, and both limits. Exact real arithmetic; regular grids from pole to pole."
  },
  {
   "property": "C160",
   "status": "partial",
   "theorems": [
    "Falwa.Atmos.C160_north_partial",
    "Falwa.Atmos.C160_south_partial",
    "Falwa.Atmos.C160_wave_north_partial",
    "Falwa.Atmos.C160_wave_south_partial",
    "Falwa.AreaIn.C160_reference_partial",
    "Falwa.AreaIn.C160_refuted"
   ],
   "note": "False in general: C160_refuted gives a continuous field that is greatest on a polar region; the area of the first partition is not counted, so at the equator the reference value stays below -1/20 instead of 0 on all fine grids. Proved for fields that are greatest (north) or smallest (south) on a null set only: C160_reference_partial for the area analysis, C160_north_partial and C160_south_partial for qref of both classes, C160_wave_north_partial and C160_wave_south_partial for lwa. Continuity of the field is enough, no gradient is needed. The QGPV may be approximate, with an error that tends to zero, which covers the copied values in the rows of the poles (still_approaches: air at rest). Exact real arithmetic."
  },
  {
   "property": "C161",
   "status": "proved",
   "theorems": [
    "Falwa.NhnIn.C161_direct",
    "Falwa.RefIn.C161_iterative"
   ],
   "note": "NhnIn.C161_direct and RefIn.C161_iterative. The continuous problem is Spec/Balance.lean, with derivatives instead of differences. The slope of u cos(phi) divided by sin(phi) cos(phi) is assumed smooth up to equator and pole. Exact real arithmetic; the row of the pole and the rows of the boundary are not covered; for jb > 0 the shear at the top is the one the code takes, from rows shifted by jb (C54)."
  },
  {
   "property": "C162",
   "status": "proved",
   "theorems": [
    "Falwa.NhnIn.C162_direct",
    "Falwa.RefIn.C162_iterative"
   ],
   "note": "NhnIn.C162_direct and RefIn.C162_iterative. Exact real arithmetic; interior rows and levels."
  },
  {
   "property": "C163",
   "status": "proved",
   "theorems": [
    "Falwa.NhnIn.C163_direct",
    "Falwa.RefIn.C163_iterative"
   ],
   "note": "NhnIn.C163_direct and RefIn.C163_iterative. As C161, with the values of qref/f in place of its slopes and the density-weighted mean square over height in place of the maximum. Q is assumed three times differentiable."
  },
  {
   "property": "C164",
   "status": "partial",
   "theorems": [
    "Falwa.Atmos.C164_qgpv",
    "Falwa.Atmos.C164_reference",
    "Falwa.Atmos.C164_average",
    "Falwa.QGArgs.C164_base",
    "Falwa.NhnIn.C164_direct_partial",
    "Falwa.NhnIn.C164_direct_iff",
    "Falwa.NhnIn.C164_refuted",
    "Falwa.RefIn.C164_iterative_partial"
   ],
   "note": "Refuted (NhnIn.C164_refuted): the solvers use heights that start at 0. C164_direct_iff: balance at the heights of the data holds only if these start at 1000 hPa or the wind is the same above and below. C164_direct_partial, C164_iterative_partial: the reference state is balanced for a gas with R and cp multiplied by (1000 hPa/p0)^kappa. Proved: Atmos.C164_qgpv, C164_reference, C164_average, QGArgs.C164_base."
  },
  {
   "property": "C165",
   "status": "proved",
   "theorems": [
    "Falwa.AreaIn.C165_circulation",
    "Falwa.Atmos.C165_boundary"
   ],
   "note": "AreaIn.C165_circulation for the area analysis, Atmos.C165_boundary for the class with a boundary latitude, northern call. The southern call gets the vorticity without a change of sign and so has the northern circulation (C56)."
  },
  {
   "property": "C166",
   "status": "partial",
   "theorems": [
    "Falwa.NhnIn.C166_exact",
    "Falwa.NhnIn.C166_iff",
    "Falwa.NhnIn.C166_refuted",
    "Falwa.Atmos.C166_rest"
   ],
   "note": "Refuted (NhnIn.C166_refuted): the code subtracts Omega a cos(phi) where the unknown (wind times cosine) needs Omega a cos(phi)^2. C166_exact: the boundary value is too small by Omega a cos(phi) (1 - cos(phi)); C166_iff: it is right only at the equator; Atmos.C166_rest: for air at rest it tends to that easterly value instead of 0."
  },
  {
   "property": "C167",
   "status": "proved",
   "theorems": [
    "Falwa.NhnIn.C167_wind",
    "Falwa.NhnIn.C167_kelvin",
    "Falwa.NhnIn.C167_code"
   ],
   "note": "NhnIn.C167_wind with an arbitrary error b of the equatorward boundary condition and t of the top shear: the mean-square error is eventually at most C (b + t + delta)^2 with C depending on the atmosphere only. C167_kelvin: with Kelvin's boundary wind b is Omega a cos(phi) (1 - cos(phi)), the term of C166. C167_code: with the boundary wind of the code and a consistent top shear the error tends to 0. Northern call, boundary north of the equator, real arithmetic; the LAPACK inverse is assumed right (InvCorrect, as in C79)."
  },
  {
   "property": "C168",
   "status": "proved",
   "theorems": [
    "Falwa.Atmos.C168_vorticity",
    "Falwa.Atmos.C168_qgpv"
   ],
   "note": "Atmos.C168_vorticity (both classes) and Atmos.C168_qgpv (NHN22; for NH18 see C169). Equal spacings means nlon = 2 (nlat - 1); on other grids the vorticity has another limit (C80, C120). Errors of mean profile and stability are a hypothesis (the spline is not modelled beyond its contract). Lowest and highest level are zero (C81)."
  },
  {
   "property": "C169",
   "status": "partial",
   "theorems": [
    "Falwa.Atmos.C169_limit_partial",
    "Falwa.Atmos.C169_refuted"
   ],
   "note": "Atmos.C169_refuted: for solid rotation with a wave in the temperature qgpv keeps away from the QGPV of the flow. Atmos.C169_limit_partial: it tends, uniformly, to the same expression with the zonal mean of the absolute vorticity as factor of the stretching term (Flow.qgpvZonal)."
  },
  {
   "property": "C170",
   "status": "proved",
   "theorems": [
    "Falwa.Atmos.C170_top",
    "Falwa.Atmos.C170_wind"
   ],
   "note": "Atmos.C170_wind (mean-square error over height of the stored uref eventually at most a constant times (b + t + delta)^2) with Atmos.C170_top (limit of the top shear). b is the difference of the boundary wind (C166), t that of the displaced top shear (C54); both are differences of functions on the sphere and no longer depend on the grid. The inversion of matrices is assumed right (LAPACK), errors of mean profile and stability vanish faster than dz."
  },
  {
   "property": "C171",
   "status": "proved",
   "theorems": [
    "Falwa.Atmos.C171_nhn22",
    "Falwa.Atmos.C171_nh18"
   ],
   "note": "Atmos.C171_nhn22 and Atmos.C171_nh18 (limit of the QGPV of the class, which for NH18 is the one of C169, with the zonal mean of the absolute vorticity in the stretching term). Hypothesis on the QGPV of the flow: greatest (north) or smallest (south) on a null set only, as in C160. Sample: flow across the poles with a temperature wave at 45N and 45S, both classes. Exact real arithmetic."
  },
  {
   "property": "C172",
   "status": "proved",
   "theorems": [
    "Falwa.Atmos.C172_wind",
    "Falwa.Atmos.C172_nhn22",
    "Falwa.Atmos.C172_nh18"
   ],
   "note": "Atmos.C172_wind (every row, both classes), Atmos.C172_nhn22 and Atmos.C172_nh18 (flux, limit of the QGPV of the class as in C171). Hypotheses on the QGPV of the flow: greatest (north) or smallest (south) on a null set only, as in C160. F1 and F2 one by one depend on the reference wind and are not covered. Sample: flow across the poles with a temperature wave at 45N and 45S, both classes. Exact real arithmetic."
  },
  {
   "property": "C173",
   "status": "proved",
   "theorems": [
    "Falwa.Atmos.C173_fluxes",
    "Falwa.Atmos.C173_balanced"
   ],
   "note": "Atmos.C173_fluxes: for any bound d on the mean-square error of the stored wind, both fluxes are eventually within d times the root mean square of the wave activity, over the root of the mass of the column and over cos(phi). Atmos.C173_balanced: with the d of C170, within a constant times b + t + delta (b, t: errors of the boundary wind and of the shear at the top that finer grids do not remove). Northern Hemisphere, NHN22. Samples: air at rest. Exact real arithmetic, LAPACK inverse assumed right."
  },
  {
   "property": "C174",
   "status": "proved",
   "theorems": [
    "Falwa.Atmos.C174_top",
    "Falwa.Atmos.C174_wind"
   ],
   "note": "Atmos.C174_top, Atmos.C174_wind: C170 for the southern call. The bound b compares the boundary wind with the circulation of the northern cap, which is what the code uses (C56 shows the same on one grid). refCirculation_reflect: the circulation of the reference state does not see where on the sphere the values are. Samples: air at rest. Exact real arithmetic, LAPACK inverse assumed right."
  },
  {
   "property": "C175",
   "status": "proved",
   "theorems": [
    "Falwa.Atmos.C175_fluxes",
    "Falwa.Atmos.C175_balanced"
   ],
   "note": "Atmos.C175_fluxes: within d times the root mean square of the wave activity, over the root of the mass of the column and over cos(phi). Atmos.C175_balanced: with the d of C174, within a constant times b + t + delta. NHN22. Samples: air at rest."
  },
  {
   "property": "C176",
   "status": "proved",
   "theorems": [
    "Falwa.AreaIn.C176_range",
    "Falwa.AreaIn.C176_assigned",
    "Falwa.AreaIn.C176_single"
   ],
   "note": "AreaIn.C176_range: error at most 3((1+u)^7-1) times the largest absolute value, for every Machine with monotonic rounding that keeps 1. AreaIn.C176_assigned; AreaIn.C176_single: IEEE single precision with unlimited exponent. AreaIn.placedFl_exact: without rounding the model is that of C49. A row that is not assigned keeps the zero of the allocation (C49_refuted)."
  },
  {
   "property": "C177",
   "status": "proved",
   "theorems": [
    "Falwa.Atmos.C177_nhn22",
    "Falwa.Atmos.C177_nh18"
   ],
   "note": "Atmos.C177_nhn22, Atmos.C177_nh18. Spec: meridionalSource (Spec/Waves.lean). The sign in the Southern Hemisphere is the one the code returns (C86). Real arithmetic."
  },
  {
   "property": "C178",
   "status": "proved",
   "theorems": [
    "Falwa.Atmos.C178_force",
    "Falwa.Atmos.C178_nhn22",
    "Falwa.Atmos.C178_nh18"
   ],
   "note": "Atmos.C178_force, Atmos.C178_nhn22, Atmos.C178_nh18. Spec: heatingTendency, Layers.Heated (Spec/Flow.lean). Grids with equator. Real arithmetic. The forcing of NH18 is not the rate of change of its QGPV (C98)."
  },
  {
   "property": "C179",
   "status": "proved",
   "theorems": [
    "Falwa.C179_sphere",
    "Falwa.Atmos.C179_reference"
   ],
   "note": "C179_sphere, Atmos.C179_reference. Spec: Motion, Motion.Obeys (Spec/Dynamics.lean). Hypotheses of the limits as in C168-C171, bundled in Atmos.Seen. The dynamics are assumed of the continuous fields; the package does not integrate them."
  },
  {
   "property": "C180",
   "status": "proved",
   "theorems": [
    "Falwa.C180_budget"
   ],
   "note": "C180_budget. Spec: meridionalWaveActivity, meridionalTransport, meridionalOutflow, meridionalSource. One level of the sphere; the terms are the limits of the computed ones by C171, C172 and C177."
  },
  {
   "property": "C181",
   "status": "proved",
   "theorems": [
    "Falwa.C181_column",
    "Falwa.Atmos.C181_north",
    "Falwa.Atmos.C181_south"
   ],
   "note": "C181_column, Atmos.C181_north, Atmos.C181_south. Spec: columnWave, columnTransport, columnOutflow, columnSource (Spec/Column.lean), Stacked (Spec/Dynamics.lean). The meridional flux is that of the continuous fields; C183 and C184 relate it to the eddy fluxes that the package returns."
  },
  {
   "property": "C182",
   "status": "proved",
   "theorems": [
    "Falwa.Atmos.C182_f3",
    "Falwa.Atmos.C182_heat",
    "Falwa.Atmos.C182_divergence"
   ],
   "note": "Atmos.C182_f3, Atmos.C182_heat, Atmos.C182_divergence. The reference wind and temperature are inputs of the theorem (QGAnalysis.withReference); that those which the package inverts for converge is not proved."
  },
  {
   "property": "C183",
   "status": "proved",
   "theorems": [
    "Falwa.C183_crossing"
   ],
   "note": "C183_crossing. Spec: Eddies, Eddies.Balanced, columnCrossing, columnEnergy, columnMomentum, upwardFlux (Props/Taylor.lean)."
  },
  {
   "property": "C184",
   "status": "proved",
   "theorems": [
    "Falwa.C184_column",
    "Falwa.Atmos.C184_north",
    "Falwa.Atmos.C184_south"
   ],
   "note": "C184_column, Atmos.C184_north, Atmos.C184_south. The reference state is an input as in C182. The relation of QGPV to winds and temperatures has the planetary vorticity in the stretching term, as QGFieldNHN22 has it; QGFieldNH18 uses the zonal mean of the absolute vorticity there, and meets the hypothesis only where that makes no difference. The limit of ncforce_baro is for meridians that meet the contours in null sets."
  },
  {
   "property": "C185",
   "status": "proved",
   "theorems": [
    "Falwa.Atmos.C185_north",
    "Falwa.Atmos.C185_south"
   ],
   "note": "Atmos.C185_north, Atmos.C185_south. Spec: BandLimits, FullBudget; limits are taken on the grids at each time, the budget integrates the limits over time. The reference wind and temperature are any that tend to Ur and Theta (as in C184)."
  },
  {
   "property": "C186",
   "status": "proved",
   "theorems": [
    "Falwa.Atmos.C186_north",
    "Falwa.Atmos.C186_south"
   ],
   "note": "Atmos.C186_north, Atmos.C186_south. Spec: CircleLimits, CircleBudget, Round."
  },
  {
   "property": "C187",
   "status": "proved",
   "theorems": [
    "Falwa.Gap.C187_components_nan",
    "Falwa.Gap.C187_total_nan",
    "Falwa.Gap.C187_value",
    "Falwa.Gap.C187_last_row"
   ],
   "note": "Gap.C187_components_nan, Gap.C187_total_nan, Gap.C187_value, Gap.C187_last_row. Model: Model/Missing.lean."
  },
  {
   "property": "C188",
   "status": "partial",
   "theorems": [
    "Falwa.Gap.C188_refuted",
    "Falwa.Gap.C188_nan_partial",
    "Falwa.Gap.C188_value_partial"
   ],
   "note": "Violated: Gap.C188_refuted. Where the field is NaN the masks are 0, so the forcing is summed over the other cells. Proved instead: Gap.C188_nan_partial (exactly when it is NaN), Gap.C188_value_partial (missing values do not take part)."
  },
  {
   "property": "C189",
   "status": "proved",
   "theorems": [
    "Falwa.Gap.Input.C189_profile",
    "Falwa.Gap.Input.C189_complete",
    "Falwa.Gap.C189_barotropic"
   ],
   "note": "Gap.Input.C189_profile, Gap.Input.C189_complete, Gap.C189_barotropic. numpy's treatment of NaN in digitize and linspace is described in Model/Missing.lean."
  },
  {
   "property": "C190",
   "status": "partial",
   "theorems": [
    "Falwa.Gap.Input.C190_complete",
    "Falwa.Gap.Input.C190_partial",
    "Falwa.Gap.Input.C190_refuted"
   ],
   "note": "Violated: Gap.Input.C190_refuted. The bins collect nothing, so the reference part is 0 instead of NaN; poleward of the last missing value FAWA is the area integral of the field alone. Proved instead: Gap.Input.C190_partial (where it is NaN and which number it is elsewhere), Gap.Input.C190_complete."
  },
  {
   "property": "C191",
   "status": "partial",
   "theorems": [
    "Falwa.Gap.C191_lower_bound_partial",
    "Falwa.Gap.C191_complete_partial",
    "Falwa.Gap.C191_flux_partial",
    "Falwa.Gap.C191_refuted"
   ],
   "note": "Violated: Gap.C191_refuted. Proved instead: Gap.C191_lower_bound_partial (always a number, at most the wave activity of every completion), Gap.C191_complete_partial, Gap.C191_flux_partial. What the reference state routines do with NaN (conversion of NaN to an integer) is not defined by the Fortran standard and not modelled."
  },
  {
   "property": "C192",
   "status": "proved",
   "theorems": [
    "Falwa.C192_sphere",
    "Falwa.C192_package"
   ],
   "note": "C192_package; C192_sphere is the identity on the sphere without grids. Exact arithmetic, regular latitudes from pole to pole."
  },
  {
   "property": "C193",
   "status": "proved",
   "theorems": [
    "Falwa.C193_sphere",
    "Falwa.C193_package"
   ],
   "note": "C193_package; C193_sphere for the circulation of the reference state. Exact arithmetic, regular latitudes from pole to pole; the example is a tilted rigid rotation, a wave that moves westward."
  },
  {
   "property": "C194",
   "status": "proved",
   "theorems": [
    "Falwa.C194_band",
    "Falwa.C194_circle"
   ],
   "note": "C194_band for a band of longitudes and any source, C194_circle for the zonal mean without sources. Exact arithmetic, regular latitudes from pole to pole. The reference value is assumed to change smoothly in time; without sources that is proved (it is constant, C179_sphere)."
  },
  {
   "property": "C195",
   "status": "proved",
   "theorems": [
    "Falwa.C195_exists",
    "Falwa.C195_default_edge",
    "Falwa.C195_south",
    "Falwa.C195_north"
   ],
   "note": "C195_exists: both wrappers succeed and agree; C195_default_edge: the default nlat_s leads to the equator; C195_south and C195_north: limits of qref, lwa and capsigma. Exact arithmetic; the caller passes the areas and lengths of a regular grid from pole to pole. The last row of each part is excluded because basis.lwa leaves it zero."
  },
  {
   "property": "C196",
   "status": "proved",
   "theorems": [
    "Falwa.C196_north",
    "Falwa.C196_south"
   ],
   "note": "C196_north and C196_south, for any latitude at which the parts end (default nlat_s: the equator). Exact arithmetic, regular latitudes from pole to pole. The reference value of a hemisphere is assumed to change smoothly in time; unlike that of the whole sphere it is not constant without sources, because air crosses the edge."
  },
  {
   "property": "C197",
   "status": "proved",
   "theorems": [
    "Falwa.C197_exists",
    "Falwa.C197_north_value",
    "Falwa.C197_north_lwa",
    "Falwa.C197_north_mean",
    "Falwa.C197_south_value",
    "Falwa.C197_south_lwa",
    "Falwa.C197_south_mean",
    "Falwa.C197_differ"
   ],
   "note": "C197_exists: both return results. C197_north_value/_lwa/_mean and C197_south_value/_lwa/_mean; C197_differ is the field where they differ. Exact arithmetic, regular latitudes from pole to pole, the rows named approach a latitude inside the part."
  },
  {
   "property": "C198",
   "status": "partial",
   "theorems": [
    "Falwa.C198_exists",
    "Falwa.C198_south",
    "Falwa.C198_north_value",
    "Falwa.C198_north_activity",
    "Falwa.C198_north_lwa_partial",
    "Falwa.C198_wave_free",
    "Falwa.C198_refuted"
   ],
   "note": "C198_exists: results are returned. Proved: C198_south (profile and wave activity) and C198_north_value (profile). Violated for the northern wave activity (C198_refuted): the signs of basis.lwa are those of a field that rises northward. C198_north_lwa_partial gives the limit exactly, the surface wave activity plus the anomalies equatorward less those poleward; C198_wave_free: for every wave-free temperature that falls toward the North Pole it is positive everywhere. So the error of C71 does not vanish on fine grids."
  },
  {
   "property": "C199",
   "status": "proved",
   "theorems": [
    "Falwa.C199_south",
    "Falwa.C199_north",
    "Falwa.C199_barotropic",
    "Falwa.C199_zero_iff",
    "Falwa.C199_derived_north",
    "Falwa.C199_derived_south"
   ],
   "note": "C199_south, C199_north, C199_barotropic; C199_zero_iff; C199_derived_north and C199_derived_south. Exact arithmetic, regular latitudes from pole to pole."
  },
  {
   "property": "C200",
   "status": "proved",
   "theorems": [
    "Falwa.Atmos.C200_north",
    "Falwa.Atmos.C200_south"
   ],
   "note": "C200_north and C200_south. The bound on the time step comes first and holds for all time axes and grids; then the grid index is taken large. Exact arithmetic; the reference states are assumed to tend to those of the motion as in C185."
  },
  {
   "property": "C201",
   "status": "partial",
   "theorems": [
    "Falwa.Xr.C201_iff",
    "Falwa.Xr.C201_refuted",
    "Falwa.Xr.C201_partial",
    "Falwa.Xr.C201_terms",
    "Falwa.Xr.C201_numbers"
   ],
   "note": "C201_terms: the five terms depend only on the instants. Violated for integration_seconds (C201_refuted): the divisor has no unit. C201_iff: the attribute is right exactly for nanoseconds (C201_partial) or an empty interval. C201_numbers: with numbers as times every call raises."
  },
  {
   "property": "C202",
   "status": "proved",
   "theorems": [
    "Falwa.C202_object",
    "Falwa.C202_function",
    "Falwa.C202_mirror"
   ],
   "note": "C202_object, C202_function and C202_mirror. Exact arithmetic, regular latitudes from pole to pole; no bound on gradients is assumed."
  },
  {
   "property": "C203",
   "status": "proved",
   "theorems": [
    "Falwa.Atmos.C203_north",
    "Falwa.Atmos.C203_south"
   ],
   "note": "C203_north and C203_south. Exact arithmetic; the reference states are assumed to tend to those of the motion as in C186."
  },
  {
   "property": "C204",
   "status": "partial",
   "theorems": [
    "Falwa.Script.C204_written_partial",
    "Falwa.Script.C204_changed_partial",
    "Falwa.Script.C204_run_partial",
    "Falwa.Script.C204_refuted"
   ],
   "note": "Violated (C204_refuted): dict.update returns None, so the variable is written without attributes, and the description goes into the dataset of the model. C204_written_partial, C204_changed_partial: exact effect of each call; C204_run_partial: of every run over different names."
  },
  {
   "property": "C205",
   "status": "proved",
   "theorems": [
    "Falwa.C205_between",
    "Falwa.C205_profile",
    "Falwa.C205_lwa"
   ],
   "note": "C205_between, C205_profile and C205_lwa. Exact arithmetic. The polar rows are left out."
  },
  {
   "property": "C206",
   "status": "proved",
   "theorems": [
    "Falwa.C206_sphere",
    "Falwa.C206_profile",
    "Falwa.C206_leaning"
   ],
   "note": "C206_sphere, C206_profile and C206_leaning. Exact arithmetic. Tilting is treated as a motion of the air, so C179 is used."
  },
  {
   "property": "C207",
   "status": "proved",
   "theorems": [
    "Falwa.C207_solution"
   ],
   "note": "C207_solution. Exact arithmetic, regular grids with rows on the poles."
  },
  {
   "property": "C208",
   "status": "proved",
   "theorems": [
    "Falwa.Nc.C208_iff",
    "Falwa.Nc.C208_contents",
    "Falwa.Nc.C208_fixed",
    "Falwa.Nc.C208_default",
    "Falwa.Nc.C208_twice",
    "Falwa.C208_analysis",
    "Falwa.C208_files"
   ],
   "note": "Nc.C208_iff, Nc.C208_contents, Nc.C208_fixed, Nc.C208_default, Nc.C208_twice, C208_analysis, C208_files. The file is the dataset that xarray opens; encoding and attributes are left out."
  },
  {
   "property": "C209",
   "status": "proved",
   "theorems": [
    "Falwa.Atmos.C209_orientation",
    "Falwa.Atmos.C209_solution"
   ],
   "note": "C209_orientation, C209_solution. Exact arithmetic; levels 2 to kmax-1; flows and grids as in C168 and C169."
  },
  {
   "property": "C210",
   "status": "proved",
   "theorems": [
    "Falwa.EqvInput.C210_room",
    "Falwa.EqvInput.C210_numbers",
    "Falwa.EqvInput.C210_contour",
    "Falwa.EqvInput.C210_default",
    "Falwa.EqvInput.C210_interval"
   ],
   "note": "EqvInput.C210_room, EqvInput.C210_numbers, EqvInput.C210_contour, EqvInput.C210_interval, EqvInput.C210_default. No overflow or underflow. Rounding of arcsin, rad2deg and interp is left out; the computed cosines are assumed non-negative and accurate to 8 u."
  },
  {
   "property": "C211",
   "status": "proved",
   "theorems": [
    "Falwa.C211_profile",
    "Falwa.C211_lwa"
   ],
   "note": "C211_profile, C211_lwa. Requires 5 (D + n + 40) N^2 u <= 2 with N = nlat - 1 (C210). No overflow or underflow. Latitudes are taken as exact; rounding of arcsin, rad2deg and interp is left out; the computed cosines are assumed non-negative and accurate to 8 u."
  },
  {
   "property": "C212",
   "status": "proved",
   "theorems": [
    "Falwa.QgpvIn.C212_vorticity",
    "Falwa.QgpvIn.C212_poles",
    "Falwa.QgpvIn.C212_qgpv",
    "Falwa.QgpvIn.C212_latitude"
   ],
   "note": "QgpvIn.C212_vorticity, QgpvIn.C212_poles, QgpvIn.C212_qgpv, QgpvIn.C212_latitude. QGPV in the rows of the poles is C217. Sines and cosines at the computed latitudes are assumed accurate to u (C212_latitude turns this into 16 u at the exact latitudes), exponentials to the relative error 16 u. No overflow or underflow, no fused operations; rounding of the arrays on their way into the routine is not counted."
  },
  {
   "property": "C213",
   "status": "proved",
   "theorems": [
    "Falwa.QgpvIn.C213_truncation",
    "Falwa.QgpvIn.C213_total"
   ],
   "note": "QgpvIn.C213_truncation, QgpvIn.C213_total. Same assumptions on the arithmetic as C212; the derivatives with bounded third derivative are those of V along a circle of latitude and of U cos(lat) along a meridian."
  },
  {
   "property": "C214",
   "status": "proved",
   "theorems": [
    "Falwa.QgpvIn.C214_stretching",
    "Falwa.QgpvIn.C214_total"
   ],
   "note": "QgpvIn.C214_stretching, QgpvIn.C214_total. Same assumptions on the arithmetic as C212; rows of the poles are left out."
  },
  {
   "property": "C215",
   "status": "proved",
   "theorems": [
    "Falwa.QgpvIn.C215_qgpv",
    "Falwa.QgpvIn.C215_latitude"
   ],
   "note": "QgpvIn.C215_qgpv, QgpvIn.C215_latitude. Assumptions on the arithmetic as in C212: every operation rounds with relative error u, in source order, no overflow or underflow, intrinsic functions accurate to a few u; rows of the poles are C217."
  },
  {
   "property": "C216",
   "status": "proved",
   "theorems": [
    "Falwa.C216_acceleration"
   ],
   "note": "C216_acceleration. Follows from C192 and C193 with the uniqueness of limits."
  },
  {
   "property": "C217",
   "status": "proved",
   "theorems": [
    "Falwa.QgpvIn.C217_direct",
    "Falwa.QgpvIn.C217_nh18"
   ],
   "note": "QgpvIn.C217_direct, QgpvIn.C217_nh18. Assumptions on the arithmetic as in C212."
  },
  {
   "property": "C218",
   "status": "proved",
   "theorems": [
    "Falwa.QgpvIn.C218_truncation",
    "Falwa.QgpvIn.C218_total"
   ],
   "note": "QgpvIn.C218_truncation, QgpvIn.C218_total. The mean of the flow is that over the columns of the grid, not the integral over the circle. Rows of the poles are left out."
  },
  {
   "property": "C219",
   "status": "proved",
   "theorems": [
    "Falwa.C219_function"
   ],
   "note": "C219_function. From C205 by the agreement of the object with the function (C108)."
  },
  {
   "property": "C220",
   "status": "proved",
   "theorems": [
    "Falwa.QgpvIn.C220_total"
   ],
   "note": "QgpvIn.C220_total. The bound of the quadrature is of first order; for smooth periodic fields the true error is smaller. Rows of the poles are left out."
  },
  {
   "property": "C221",
   "status": "proved",
   "theorems": [
    "Falwa.QgpvIn.C221_vorticity",
    "Falwa.QgpvIn.C221_sharp",
    "Falwa.QgpvIn.C221_poles",
    "Falwa.QgpvIn.C221_qgpv"
   ],
   "note": "QgpvIn.C221_vorticity, C221_sharp, C221_poles, C221_qgpv. The reference state is held fixed although the code computes it from the same temperatures; C221_sharp is about the vorticity between the poles, C221_poles about the rows of the poles."
  },
  {
   "property": "C222",
   "status": "proved",
   "theorems": [
    "Falwa.QgpvIn.C222_qgpv"
   ],
   "note": "QgpvIn.C222_qgpv. The reference state is held fixed although the code computes it from the same temperatures."
  }
 ]
}