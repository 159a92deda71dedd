# Formal model of hn2016_falwa: design

This directory holds a Lean 4 model of the Python and Fortran code in
`/repo/src/falwa`, the properties in `properties.jsonl`, and kernel-checked
proofs of those properties (or of their negation, where the code violates them).

## 1. Trusted base

* The Lean 4.33.0 kernel and the Mathlib theorems used. No own axioms, no `sorry`,
  no `native_decide`, no `implemented_by`. Every theorem depends at most on `propext`,
  `Classical.choice` and `Quot.sound`.
* The hand translation of the source text into Lean definitions. Every definition cites
  the file and the lines it models. The source was read as text and never executed.
* Numbers. Floating-point numbers are modelled as elements of an arbitrary linearly
  ordered field `K`, or of the real numbers where `arcsin`, `cos` or `exp` matter.
  Rounding, overflow and NaN are outside the model, with these exceptions: NaN from `arcsin` is kept
  as the `none` branch; `Model/Rounding.lean`, `Model/FluxRounding.lean` and `Model/AreaRounding.lean` model `basis.lwa`, the wave
  activity loop of the Fortran routines and their partition areas with rounding after every operation; `Model/InterpRounding.lean` does so for the
  interpolation of the reference QGPV, `Model/EqvlatRounding.lean` for the profile of `eqvlat_fawa`, `Model/QgpvRounding.lean` for absolute vorticity and QGPV,
  and `Model/Linspace.lean` for the latitude grid of the constructor. In all of these a rounding function is applied to the exact result of each operation. Overflow is
  excluded. Whether fused operations are covered is said in the model file, and what is assumed of the rounding, underflow included, and of library functions
  such as `sin` stands in the hypotheses; `Model/Missing.lean` models
  the analyses of `basis.py` and the wave activity loops for fields that hold NaN.
* Library behaviour assumed: `numpy` slicing, broadcasting, `linspace`, `digitize`,
  `cumsum`, `interp`, `cov`; `itertools.product`; `f2py` zero-fills `intent(out)` arrays;
  Fortran stores arrays in column-major order.
* `scipy.interpolate.interp1d` with linear interpolation and extrapolation is modelled by its method `_call_linear` on ascending
  nodes (`Model/Interp.lean`). In `Model/Pipeline.lean` both interpolations remain parameters.
* `scipy.interpolate.UnivariateSpline` with default smoothing is represented by a contract (`Model/Spline.lean`): the least squares cubic
  is returned if the sum of its squared residuals is at most the number of points; otherwise that sum ends within one per mille of it.
  Only C125 uses the contract, and it is shown to be satisfiable.
* Not modelled (parameters, or absent): the spline of the mean profiles elsewhere, LAPACK (the direct-solver theorem takes "the inverse is an inverse" as
  hypothesis), reading and writing of netCDF files, plotting code, logging, docs, packaging, and `extrap1d` and the option
  `use_real_Data=False` of `legacy/beta_version.py`, and `interpolate_fields_direct_inv.f90`, which is neither built nor called. `spsolve` is not modelled: the theorems speak of every solution.

## 2. Conventions

* `Verif/Model/*` holds definitions that follow the code, function by function.
* `Verif/Spec/*` holds independent specifications.
* `Verif/Props/*` holds the property theorems, named `Cnn_...`, each with an `example`
  that exhibits a concrete non-trivial instance of its hypotheses.
* `Verif/Lemmas/*` holds helper lemmas.
* A property that the code violates has a theorem `Cnn_..._refuted` (the negation, with a concrete
  witness or for all inputs) and one or more theorems suffixed `_partial` for what does hold.
* Arrays are functions from natural-number indices. Sizes are explicit arguments. Python indices
  start at 0, Fortran indices at 1, as in the source. Loops are `forLoop lo hi body state`.
* Exceptions are values (`Except`), so an error branch is part of each statement.

## 3. Plan per property

| Property | Model | Method |
|---|---|---|
| C01-C07 | `basis.lwa` as a loop over rows with masks | induction on rows; spec is a sum over displaced rows |
| C08-C11, C13 | `linspace`, `digitize`, `cumsum`, `interp` over the reals, `eqvlat_fawa`, `eqvlat_vgrad` | monotone interpolation; reindexing of finite sums |
| C12 | regular grid, cell areas over the reals | closed form of a cosine sum, bound on cotangent |
| C14-C17 | the wrapper functions, exceptions as values | symmetry and refinement to `lwa`; refutation of the violated parts |
| C18-C22 | the finite-difference operators of `utilities.py` | telescoping sums, linearity, exactness on affine input |
| C23-C24 | `static_stability`, `compute_qgpv_givenvort` with an explicit "uninitialised" value | exactness; parity argument for uncovered rows |
| C25-C26 | `BarotropicField` as a state machine with its cache slots | invariant over all read/write histories |
| C27-C31 | storage descriptors over global arrays | slice arithmetic; frame conditions; finite table of accessors |
| C32-C35 | constructor validation as decision functions | case analysis; floor arithmetic |
| C36-C39, C72, C73 | call protocol of `QGField` as a transition system, solver outcome as input | invariant over all call sequences |
| C40-C41 | `_compute_prefactor`, `_vertical_average`, and the Fortran column sums | finite sums |
| C42-C46, C74, C75 | `compute_flux_dirinv`, `compute_lwa_only_nhn22`, with loops, accumulators and array accesses | loop invariants; log of all accesses for memory safety |
| C47-C48 | `compute_qgpv`, `compute_qgpv_direct_inv`, and the whole chain from input fields to fluxes (`Model/Pipeline.lean`); latitude and height interpolation, splines, LAPACK and unset memory are parameters | equivariance proofs |
| C49-C51, C56, C76 | area analysis in the two reference-state routines | counting and monotone interpolation |
| C52-C53, C57, C78 | reference-temperature part of both solvers, returned wind | sums and telescoping |
| C54, C79 | downward and upward sweeps, LAPACK inversion as a parameter | induction over levels; minimum principle; maximum principle for uniqueness |
| C55, C77 | successive over-relaxation loop with an explicit value for uninitialised memory | fixed-point characterisation, fuel bound, uniqueness by a maximum principle |
| C58-C59 | shape-level model of the analysis pipeline (`Model/Shapes.lean`): only shapes and shape errors, for a solver that converges | statements quantify over every grid that `checkYlat` accepts; case analysis over parity and mode |
| C60-C65 | lookup, flattening, flipping, mirroring, budget | lists and finite sums |
| C80-C82 | both QGPV routines on a wind and temperature field | finite differences and telescoping sums |
| C83-C87 | flux routine with its vertical average and hemispheric assembly | loops as sums, row reversal |
| C88-C90 | layerwise terms (`Model/Layerwise.lean`) | interchange of average and assembly, telescoping |
| C91-C95, C97 | `interp1d`, vertical grid, even latitude grids, potential temperature, masked arrays (`Model/Interp.lean`) | search index by counting; line formula |
| C96, C98 | mean profiles, forcing from a heating rate | sums; comparison of two finite-difference codes |
| C66-C70 | covariance, gap filling, index map, unit conversion, component storage | algebra |
| C104-C106 | bracket average of `eqvlat_vgrad`, second result of `eqvlat_fawa` | linearity and range of interpolation; affine law of bin sums |
| C107 | the whole analysis in other units of length and time | steps of each loop commute with the scaling (`doLoop_map`), routine by routine |
| C108 | `BarotropicField` and `barotropic_eqlat_lwa` with all optional arguments | refinement of the object to the function, values from C02 |
| C109 | default `nlat_s` of the hemispheric wrappers | range of the interpolated profile per hemisphere; witness with five latitudes |
| C110 | all hemispheric wrappers against sums over absolute row numbers | shift of index in displaced sums |
| C111 | potential temperature plus a constant, routine by routine up to all results of both classes | differences cancel, weighted means of a constant, induction over sweeps |
| C112 | red-black relaxation with varying factors for a symmetric diagonally dominant matrix; transfer to the sweeps of the code | energy decrease, compactness-free limit argument, injectivity from C55 |
| C113 | residual of the wind returned; refuted, bound for the half treated last | residual after an update, tuned sample with arbitrary residual |
| C114 | each wave activity is a sum of positive parts with signs that depend on the rows only | Lipschitz bound and subadditivity of the positive part |
| C115 | contour value defined by areas (`Spec/Contour.lean`); comparison of equivalent latitudes with latitudes is comparison of areas | the contour and the interpolated value lie between the same bin edges |
| C116 | order of contour values, C115 on both sides; concrete family of three cells | monotonicity of areas; explicit interpolation |
| C117 | definitions of `RefIn`/`NhnIn` results on boundary rows and levels | case analysis |
| C118 | `basis.lwa` with a rounding function after every operation and any summation tree (`Model/Rounding.lean`) | induction on the tree; relative error algebra |
| C119 | `basis.lwa` and the column sums on sampled fields | Riemann-sum error bound |
| C120 | finite-difference operators, vorticity and stretching on sampled fields | Taylor bound for central differences |
| C121 | the whole chain (`Model/Pipeline.lean`) | from the rotation theorems |
| C122-C124 | constructor: checks in their order, interpolations, normalisation (`Model/Construct.lean`) | case analysis on shapes; equality of the constructed analyses |
| C125 | constructor with the contract of the spline (`Model/Spline.lean`) | existence and uniqueness of least squares cubics |
| C126 | registry and collectors of `QGDataset` (`Model/Dataset.lean`, on `Model/Shapes.lean` and `Model/Xarray.lean`) | case analysis on variables, lists of any length |
| C127 | `basis.lwa`, `eqvlat`, `BarotropicField`, LWA loops of `compute_flux_dirinv` | LWA summed over longitudes is a convex function of the reference value; minimum by one-sided slopes (`Lemmas/Minimal.lean`) |
| C128 | `basis.lwa`, LWA loops of `compute_flux_dirinv` | telescoping of squares along a column, induction over rows (`Lemmas/Quadratic.lean`) |
| C129 | `basis.eqvlat_fawa`, `basis.lwa`, `BarotropicField` | both sides expressed by the area and circulation below the interpolated contour, then `regular_area_error` (`Props/ZonalMean.lean`) |
| C130 | `is_nhem = .false.` branches of `compute_flux_dirinv_nshem` and `compute_lwa_only_nhn22` (`Model/SouthBranch.lean`) | loop nests reduced to one cell each, then sums reversed row by row (`Props/SouthBranch.lean`) |
| C131 | `cbar` and `fawa` of `compute_qref_and_fawa_first` (`Model/QGFawa.lean`), area analysis, wave activity of the flux routine, pipeline | circulation as weighted sum over the cells, error per cell at most one contour interval; trapezoidal sum with midpoint cosines by induction over the rows; midpoint sum telescopes (`Lemmas/QGFawa.lean`, `Props/QGFawa.lean`) |
| C132 | as C131, unset memory is a parameter | characterisation of the elements that do not depend on it |
| C133 | inner loop of the wave activity routines with rounding after every operation (`Model/FluxRounding.lean`) | error of a running sum by induction, errors of the weights, evaluation of single precision for the pole (`Props/FluxRounding.lean`) |
| C134 | length of `np.arange` and the dimension check of the f2py wrapper (`Model/Arange.lean`) | relative error bounds, exactness of numbers with few digits, evaluation of one double (`Props/Arange.lean`) |
| C139 | both modes of the pipeline (`Model/Pipeline.lean`, `Model/Flux.lean`) | congruence of the northern flux call in its reference states; case split on the rows that the southern assignment overwrites (`Props/NorthOnly.lean`) |
| C140 | index of the area analysis with rounding (`Model/AreaRounding.lean`) | relative error of the two roundings of each quotient, compared with the distance to the next integer; monotonicity of round-to-nearest (`Props/AreaRounding.lean`) |
| C141 | array accesses of all nine Fortran routines as a trace (`Model/Bounds.lean`) | membership in nested loops, linear arithmetic over the bounds; the necessary conditions from the extreme iteration (`Props/Bounds.lean`) |
| C142 | cell, partition and cumulative areas with rounding (`Model/AreaRounding.lean`) | calculus of relative errors (`Lemmas/Near.lean`), nested loop invariants, evaluation of single precision at the pole (`Props/PartitionArea.lean`) |
| C143 | `_check_and_flip_ylat` with the grid of `np.linspace` rounded (`Model/Linspace.lean`) | relative errors for rows off the middle; half-unit errors and an integer remainder for the middle row (`Props/Linspace.lean`) |
| C144 | `BarotropicField` with default areas | closed form of the rectangle rule for the cosine, contour sandwich, C115 and C128 (`Props/Zonal.lean`) |
| C145 | area analysis of both QG classes | row areas against polar caps (C144), contour sandwich with the first partition, C117 and C128 (`Props/ZonalQG.lean`) |
| C146 | direct solver (NHN22) and limit of the iteration (NH18) | discrete comparison principle with barrier functions (`Lemmas/Response.lean`, `Props/Response.lean`) |
| C152 | calls of compiled routines, as f2py binds arguments (`Model/F2py.lean`) | characterisation of accepted calls for any signature, then the finite list of calls (`Props/F2py.lean`) |
| C155 | sessions on a `QGDataset` (`Model/DatasetRun.lean`) | list of state machines; induction over fields and over calls (`Props/DatasetRun.lean`) |
| C156 | `hemisphere_to_globe` followed by the analysis (`Model/Xarray.lean`, `Model/Pipeline.lean`) | symmetry argument on composed models, concrete witness for the violation (`Props/Globe.lean`) |
| C157 | arguments of `QGDataset` (`Model/DatasetArgs.lean`) | decision logic over argument kinds and lists of names (`Props/DatasetArgs.lean`) |
| C158 | comparison figures (`Model/Plot.lean`) | decision logic over scales; extrema of finite fields (`Props/Plot.lean`) |
| C159 | barotropic analysis on refined grids (`Model/Barotropic.lean`) | Riemann sums on the sphere, squeeze of areas by ramps, uniqueness of the enclosing value (`Spec/Rearrange.lean`, `Lemmas/Rearrange.lean`, `Props/Rearrange.lean`) |
| C160 | area analysis of both solvers and `lwa` on refined grids (`Model/AreaAnalysis.lean`, `Model/Pipeline.lean`) | Riemann sums on the sphere, first partition of small area, mirror image for the south, Lipschitz dependence on the QGPV; refuted for a plateau (`Props/RearrangeQG.lean`, `Props/RearrangeClasses.lean`, `Props/RearrangeSamples.lean`) |
| C161 | discretised elliptic equation of both solvers (`Model/RefState.lean`, `Model/DirectInv.lean`) | consistency of the five-point operator with the balance equation (`Spec/Balance.lean`, `Lemmas/BalanceError.lean`) plus the comparison principle of C146 (`Lemmas/BalanceConverge.lean`, `Props/Balance.lean`) |
| C164 | vertical grid of the constructor with `data_on_evenly_spaced_pseudoheight_grid=True` against the heights inside the solvers | heights that start at `base` (`Model/Lifted.lean`), thermal wind and elliptic equation there (`Spec/Lifted.lean`); `Props/Lifted.lean` |
| C165 | `ckref` of `compute_qref_and_fawa_first`, boundary value of `matrix_b4_inversion` | circulation of a cap after rearrangement as an integral over the sphere (`Spec/Circulation.lean`); `Props/Circulation.lean` |
| C166 | boundary value of `matrix_b4_inversion` | Kelvin's circulation of a wind (`Spec/Circulation.lean`); `Props/Kelvin.lean` |
| C167 | whole direct solver (`compute_qref_and_fawa_first`, `matrix_b4_inversion`, `matrix_after_inversion`, `upward_sweep`) | balance equation with derivatives (`Spec/Balance.lean`), rearrangement on the sphere (`Spec/Rearrange.lean`), Kelvin's circulation (`Spec/Circulation.lean`); `Props/SphereWind.lean` |
| C168 | `compute_qgpv_direct_inv`, `compute_qgpv` (vorticity) | vorticity and QGPV as derivatives on the sphere (`Spec/Flow.lean`); `Props/SmoothQgpv.lean` |
| C169 | `compute_qgpv` | limit of the QGPV of the NH18 class; `Props/SmoothQgpv18.lean` |
| C170 | `compute_qgpv_direct_inv`, `compute_qref_and_fawa_first`, `matrix_*`, `upward_sweep`, `_compute_uref_fawa_b` | wind and temperature in, reference wind out (`Spec/Flow.lean`, `Spec/Balance.lean`); `Props/SmoothWind.lean` |
| C171 | `compute_qgpv`, `compute_qgpv_direct_inv`, area analysis, `compute_flux_dirinv`, `compute_lwa_only_nhn22` | wind and temperature in, wave activity and its column average out (`Spec/Waves.lean`); `Lemmas/Columns.lean`, `Props/SmoothLwa.lean` |
| C172 | `compute_flux_dirinv_nshem`, `_vertical_average` | `u_baro` and F1 + F2 for smooth input (`Spec/Waves.lean`); `Lemmas/StepSums.lean`, `Lemmas/RowSums.lean`, `Props/SmoothFlux.lean` |
| C173 | `compute_flux_dirinv_nshem`, direct solver | F1 and F2 for smooth input; Cauchy-Schwarz for column averages; `Props/SmoothAdvection.lean` |
| C174 | `_compute_reference_states` (southern call), storage | reference wind of the Southern Hemisphere for smooth input; `Props/SmoothWindSouth.lean` |
| C175 | `compute_flux_dirinv_nshem`, direct solver | F1 and F2 of the Southern Hemisphere for smooth input; `Props/SmoothAdvectionSouth.lean` |
| C176 | `compute_reference_states` lines 80-108 with rounding | range of the reference QGPV in single precision; `Model/InterpRounding.lean`, `Props/InterpRounding.lean` |
| C177 | `compute_flux_dirinv_nshem`, `_vertical_average` | `ncforce_baro` for smooth input; `Lemmas/SourceSums.lean`, `Props/SmoothSource.lean` |
| C178 | `compute_ncforce_from_heating_rate`, then `compute_flux_dirinv_nshem` | forcing and `ncforce_baro` of a smooth heating rate; `Props/SmoothHeating.lean` |
| C179 | `compute_qref_and_fawa_first` and `_compute_qref` of NH18 at two times | reference QGPV unchanged by conservative motion; `Spec/Dynamics.lean`, `Lemmas/PositivePart.lean`, `Lemmas/BoxBudget.lean`, `Props/Conserved.lean` |
| C180 | the limits of `lwa`, F1 + F2 and `ncforce_baro` | budget of wave activity on one level; `Props/Budget.lean` |
| C181 | limits of `lwa_baro`, F1 + F2 and `ncforce_baro` at all times | budget of the column means; `Spec/Column.lean`, `Lemmas/ColumnSwap.lean`, `Props/ColumnBudget.lean` |
| C182 | limits of `adv_flux_f3`, `meridional_heat_flux`, `divergence_eddy_momentum_flux` | mean value theorem for the differences; `Props/SmoothEddy.lean` |
| C183 | the eddy fluxes add up to the flux of QGPV | integration by parts in height, exchange of integrals; `Props/Taylor.lean` |
| C184 | complete budget of wave activity | C181, C182 and C183; `Props/FullBudget.lean` |
| C194 | Budget of `BarotropicField.lwa` | change between two times of its sums over columns; `Props/BarotropicBudget.lean` |
| C195 | `qgpv_eqlat_lwa`, `qgpv_eqlat_lwa_ncforce` on ever finer grids | limits of profile, wave activity and source of each hemisphere; `Props/HemLimit.lean` |
| C196 | Budget of the `lwa` of `qgpv_eqlat_lwa` | change between two times of its sums over columns, with the term at the edge of the hemisphere; `Props/HemBudget.lean` |
| C197 | `qgpv_eqlat_lwa` against `BarotropicField` | ordering of the reference values and of mean `lwa`, when they agree and when not; `Props/HemWhole.lean`, `Lemmas/Parts.lean` |
| C198 | Limits of `theta_lwa` | both profiles and the southern wave activity; the northern wave activity refuted and given exactly; `Props/HemTheta.lean`, `Spec/Surface.lean`, `Lemmas/HemRows.lean` |
| C199 | Prescribed profiles on fine grids | limits of `qgpv_input_qref_to_compute_lwa` and `barotropic_input_qref_to_compute_lwa`, and when they vanish; `Props/HemPrescribed.lean` |
| C200 | `integrate_budget` on fine grids and time axes | all five terms, uniform in the time axis; `Props/IntegratedBudget.lean`, `Lemmas/TimeAxis.lean` |
| C201 | Resolution of times in `integrate_budget` | terms independent of it; `integration_seconds` refuted except for nanoseconds; `Model/TimeCoord.lean`, `Props/TimeCoord.lean` |
| C202 | Limits of the two parts | both parts of `BarotropicField` and `barotropic_eqlat_lwa`, and their exchange under reflection; `Props/TwoParts.lean` |
| C203 | `integrate_budget` summed over a circle of latitude | zonal term exactly zero, others tend to the budget of the zonal mean; `Props/CircleIntegrated.lean` |
| C204 | Attributes of variables converted from hybrid levels | refuted; exact effect by induction over the variables of a run; `Model/Attributes.lean`, `Props/Attributes.lean` |
| C205 | Error of `BarotropicField` on a given grid | explicit bounds for reference state and wave activity, for fields of bounded slope; `Props/GridBound.lean`, cells are counted in `Lemmas/CellCount.lean` |
| C206 | Reference state under rotations of the sphere | limits agree for a smooth field and its rotation by any Euler angles; explicit bound for solid body rotation about a tilted axis; `Spec/Turn.lean`, `Props/Tilt.lean` |
| C207 | Exact solution: solid body rotation about a tilted axis | closed forms of the limits of reference state and zonal mean wave activity for every tilt; `Props/TiltedWave.lean` |
| C208 | `extract_one_timeslice`, and analysis of the extracted file | decision logic, contents, composition; commutation with every session of a `QGDataset` by induction; `Model/TimeSlice.lean`, `Props/TimeSlice.lean` |
| C209 | QG classes: reference QGPV independent of orientation; exact solution for tilted solid rotation | limits for both classes and hemispheres; `Props/TiltClasses.lean` |
| C210 | Reference profile of `eqvlat_fawa` in machine arithmetic | no NaN if the areas leave room, accuracy, default areas; `Model/EqvlatRounding.lean`, `Props/EqvlatRounding.lean` |
| C211 | Total error of the barotropic profile and wave activity in machine arithmetic | discretisation and rounding together, explicit constants; `Props/MachineBound.lean` |
| C212 | Absolute vorticity and QGPV of `compute_qgpv_direct_inv` in single precision | forward error bound; `Model/QgpvRounding.lean`, `Props/QgpvRounding.lean` |
| C213 | Total error of the single-precision absolute vorticity on a given grid | second order, data error, rounding; `Props/VorticityError.lean` |
| C214 | Total error of the single-precision QGPV on a given grid | second order in both spacings, data error, rounding; `Props/QgpvError.lean` |
| C215 | Rounding error of compute_qgpv, whose stretching term carries the zonal-mean vorticity | one relative error per column; `Props/Qgpv18Rounding.lean` |
| C216 | Present wave activity limits the acceleration of the zonal-mean wind at all times | consequence of C192 and C193; `Props/Acceleration.lean` |
| C217 | Rounding error of QGPV in the rows of the poles | means over columns; `Props/QgpvPoles.lean` |
| C218 | Total error of the QGPV of compute_qgpv on a given grid | truncation, data error, rounding; `Props/Qgpv18Error.lean` |
| C219 | Error bound of barotropic_eqlat_lwa on a given grid | C205 through C108; `Props/FunctionGridBound.lean` |
| C220 | QGPV of compute_qgpv against the flow with the mean along the circle of latitude | C218 and quadrature; `Props/Qgpv18Circle.lean` |
| C221 | sensitivity of the QGPV of the direct inversion to its input fields | differences row by row; `Props/QgpvSensitivity.lean` |
| C222 | sensitivity of the QGPV of `compute_qgpv` to its input fields | difference of a product; `Props/QgpvSensitivity.lean` |
| C192–C193 | Zonal wind and wave activity | their sum is the wind of the reference state and constant without sources; `Spec/Barotropic.lean`, `Props/Impulse.lean` |
| C187–C191 | NaN in the field | where the results are NaN and what they are elsewhere; `Model/Missing.lean`, `Props/Missing.lean`, `Props/MissingProfile.lean`, `Props/MissingQgpv.lean` |
| C185, C186 | sums along longitude of `lwa_baro`, `convergenceZonal`, `divEddyMomentumFlux`, `heatFlux`, `ncforceBaro` | budget of a sector and of the zonal mean; `Lemmas/Bands.lean`, `Props/BandBudget.lean` |
| C162, C163 | discretised elliptic equation of both solvers | summation by parts, Young and Cauchy-Schwarz (`Lemmas/Energy.lean`, `Props/Energy.lean`); with the consistency of C161 (`Lemmas/BalanceMean.lean`, `Props/BalanceMean.lean`) |
| C153, C154 | input of the analysis scripts, conversion from hybrid levels (`Model/Scripts.lean`) | cases of monotonic axes; bracketing interval (`Props/Scripts.lean`) |
| C147-C149 | arrays drawn by the budget figures of `scripts/nhn_grl2022` (`Model/Grl.lean`) | sums over a periodic circle, telescoping (`Lemmas/Grl.lean`, `Spec/Circle.lean`, `Props/Grl.lean`) |
| C150, C151 | experiments of figure 5 | induction over the steps, closed form of the nested loops (`Props/Leap.lean`) |
| C135-C138 | heap of buffers and views of all array attributes of QGField (`Model/Alias.lean`) | safe-memory invariant of all sessions, noninterference relation between two sessions (`Props/Alias.lean`) |
| C99-C103 | `solve_uref_both_bc` (`Model/Legacy.lean`, `Spec/Legacy.lean`) | sparse rows by injectivity of the index map; maximum principle; injective linear maps are surjective |

Nothing in the list was judged inexpressible. Weaker results are marked `partial` in `MANIFEST.json`.

## 4. Disagreements between code and property

Recorded here as they are proved. Each entry is a property that the code violates, with the theorem that shows it.

* C02 (`C02_refuted`): `basis.lwa` stops its loop at row `nlat-2`, so the last row is always zero.
* C14 (`C14_refuted`): `basis.lwa` always counts the row itself to its southern side and skips the northernmost row of
  its domain. In `qgpv_eqlat_lwa` the wave activity of a mirrored field is therefore not the mirrored wave activity.
* C15 (`C15_refuted`): `eqvlat_hemispheric` returns the northern profile with the opposite sign.
* C16 (`C16_refuted`): `eqvlat_bracket_hemispheric` raises `TypeError` for every argument, since it passes `vgrad`
  to `eqvlat_fawa`, which has no such parameter. So does `qgpv_eqlat_lwa_options` with `vgrad`.
* C17 (`C17_refuted`): `barotropic_input_qref_to_compute_lwa` returns a tuple where the documentation promises an array.
* C26 (`C26_refuted`): `BarotropicField` caches `lwa` but not `equivalent_latitudes`. After `pv_field` is replaced
  the two belong to different fields.
* C71 (`C71_refuted`): `theta_lwa` reports wave activity in the northern hemisphere for wave-free temperature.
* C18 (`C18_refuted`): near the poles `zonal_convergence` returns the raw difference of the two neighbours.
  Lines 228-231 of `utilities.py` only touch the rows whose cosine exceeds the tolerance.
* C20 (`C20_refuted`): on the first and last row `meridional_divergence` divides a one-sided difference by two spacings.
* C24 (`C24_refuted`, `C24_odd_grid_uncovered`): `compute_qgpv_givenvort` leaves the rows between its two hemispheric
  slices uninitialised. With the default `nlat_s` this is the middle row of every odd grid.
* C30 (`C30_refuted`): `ep4_nhem` and `ep4_shem` of the layerwise storage refer to an array that is never allocated.
* C33 (`C33_refuted`): the constructor accepts grids whose equator is not in the middle, for example 0, 90.
* C35 (`C35_refuted`, `C35_levels_refuted`): the constructor checks the order of the first two entries only.
* C37 (`C37_refuted`): a solver that converges in exactly `maxit` sweeps is reported as not converged.
* C38 (`C38_refuted`, `C38_failure_is_permanent`): `_nonconvergent_uref` is never reset. After one failure the object
  refuses fluxes for ever, even after a converging recomputation.
* C39 (`C39_refuted`): `compute_layerwise_lwa_fluxes` has no guard. After `interpolate_fields` alone it computes with
  zero reference states.
* C72 (`C72_refuted`): the storages are allocated as zeros, so the `is None` tests of `qref`, `lwa_baro`, ... never fire.
* C73 (`C73_refuted`): `interpolate_fields` does not invalidate the reference states.
* C40 (`C40_refuted`): `_vertical_average` sums one level more (the top level) than `_compute_prefactor`.
* C43 (`C43_refuted`): on an evenly spaced height grid that does not start at zero, `compute_lwa_only` weights with
  `dz*(k-1)` and the other entry point with the actual height. The column averages differ by `exp(-z1/H)`.
* C46 (`C46_always_violated`): line 152 of `compute_flux_dirinv.f90` reads `uref(0,k)` on every grid. For `jb = 0` lines
  177-178 write `ep2(i,0,k)` and `ep3(i,0,k)`. In column-major order these denote elements of the previous level.
* C74 (`C74_refuted`): those writes put equatorial winds on the pole row. The row `jb` gets winds that belong one row further
  north for `jb >= 1` too, but it is outside the analysed domain.
* C75 (`C75_refuted`): the read of `uref(0,k)` enters the momentum-flux divergence of the first analysed row.
* C49, C50 (`C49_refuted`, `C49_out_of_range`, `C50_refuted`): the first partition (values above `qmax-dq`) never enters the
  cumulative area, since `aan(1) = 0` and the sum starts at 2. If that partition is large, rows near the equator get no
  reference value and keep the zero of the allocation, which may lie outside the range of the field.
* C51 (`C51_refuted`): the pole rows have zero area but take part in `maxval` and `minval`. A value at the pole changes
  the reference state.
* C56 (`C56_refuted`, `C56_north_circulation_partial`): the southern call passes the flipped absolute vorticity without
  changing its sign. Its boundary circulation is the northern one for every field.
* C54 (`C54_refuted`, `C54_top_partial`): the upper boundary condition of the direct solver (`compute_qref_and_fawa_first.f90`
  lines 166-173) takes the temperature gradient `tbar(j+1)-tbar(j-1)` with `j = jj - jb`. For `jb >= 1` this gradient belongs
  to a latitude `jb` rows closer to the equator. With three analysed rows (`C54_three_rows`) the second assignment in
  `matrix_b4_inversion.f90` lines 60-61 overwrites the equatorward boundary term.
* C55 (`C55_refuted`): after non-convergence the wind is zero on all rows but the first, which keeps the zonal-mean wind of the
  data.
* C57 (`C57_always_violated`): line 1878 of `oopinterface.py` passes `tn0` for both hemispheres.
* C77 (`C77_refuted`): the local array `cref` is not initialised. If the area analysis leaves the equatorward row unassigned,
  its old contents enter the boundary wind.
* C78 (`C78_refuted`, `C78_boundary_row_partial`): `upward_sweep` never assigns `u(1,k)` below the top level, and on the top
  level it uses the circulation of a level for which none is computed. The returned row is zero below the top and `-om*a` at
  the top.
* C62 (`C62_refuted`): `heating_rate` and `ncforce` given to `QGDataset` are not flipped along with the fields. On a dataset
  with latitudes from north to south, forcing of the north is applied in the south.
* C63 (`C63_refuted`, `C63_swapped_partial`): `QGDataset.static_stability` labels the pair (south, north) as (north, south).
* C70 (`C70_refuted`, `C70_south_unchanged_partial`): lines 689-690 of `oopinterface.py` assign the southern components to
  names that the layerwise storage does not declare.
* C48 (`C48_nh18_refuted`, `C48_nhn22_never`, `C48_nhn22_refuted`): in global mode the southern call overwrites the equator row
  of every stored array, so wave activity on the equator belongs to the southern hemisphere (`C48_equator_condition`). In
  `QGFieldNHN22` the reference temperature is mirrored for no atmosphere whose two hemispheric profiles differ.
* C58 (`C58_refuted`): on every even grid without equator, northern-only mode raises `ValueError` in `interpolate_fields()`,
  `compute_reference_states()` and `compute_lwa_and_barotropic_fluxes()` (`C58_northern_never`: the property `qgpv` passes all
  latitudes to an interpolation that expects half of them). In both modes `compute_layerwise_lwa_fluxes()` fails with the
  default forcing and with a forcing on the input grid (`C58_layerwise_never`), and `compute_ncforce_from_heating_rate` fails
  for every shape (`C58_heating_never`).
* C59 (`C59_refuted`): on these grids the tuple of the fluxes has one latitude more than the properties (`C59_tuple_never`).
  In northern-only mode with an equator off the middle the stored hemisphere and `ylat_ref_states` differ
  (`C59_offcentre_never`).
* C80 (`C80_refuted`): both QGPV routines divide the zonal difference of `v` by the latitude spacing `2*dphi`. The zonal part of the
  vorticity is off by the factor `2(nlat-1)/nlon` unless both spacings are equal (as they are on the 240 x 121 grid of the tests).
* C81 (`C81_refuted`): `compute_qgpv` multiplies the stretching by the zonal mean absolute vorticity, not by f.
* C86 (`C86_refuted`): `ncforce` is summed with `qe <= 0` poleward (and `qe > 0` equatorward), so a poleward cell exactly on its
  contour, in particular the row itself in a wave-free state, contributes.
* C89 (`C89_refuted`): the column sum of `stretch_term` telescopes to the low-level heat flux minus terms of the two highest
  levels, which the documentation leaves out.
* C90 (`C90_refuted`): `flux_vector_phi_baro` averages over levels 2..kmax, the momentum-flux divergence over 2..kmax-1.
* C92 (`C92_refuted`): `_check_valid_plev` checks only the top. Data whose lowest level is above 1000 hPa are extrapolated to the
  ground along the two lowest levels.
* C94 (`C94_refuted`, `C94_smoothing_partial`): on even grids `interpolated_u` and its siblings are not the input but its 1-2-1
  mean; a wind that alternates from row to row is reported as zero.
* C97 (`C97_refuted`): `_convert_masked_data` takes `.data`, so masked values enter the analysis (with a warning).
* C98 (`C98_refuted`): in `QGFieldNH18` the forcing uses f and the QGPV the zonal mean absolute vorticity.
* C100 (`C100_refuted`): with three levels, the adiabatic system of `solve_uref_both_bc` is singular.
* C102 (`C102_refuted`, `C102_ends_partial`): `solve_uref_both_bc` sets the wind correction to zero at equator and pole, so the
  no-slip reference wind at the ground is the zonal mean wind there.
* C103 (`C103_refuted`, `C103_differs_partial`): line 372 of `beta_version.py` uses `gl[j-1]` and `cosl[j-1]`, which belong to row `j` of
  the padded grid, with the shear of row `j-1`. Rows from `jmax1` on are left at zero.
* C104 (`C104_refuted`, `C104_zero_at_pole`): `eqvlat_vgrad` leaves the first and last entry of `brac` zero and counts empty bins
  (bin 0 always) as zero. The bracket average of the constant 1 is 0 at the south pole. Entry `i` averages the bins `i-1` and `i+1`.
* C105 (`C105_refuted`, `C105_always_changes`): `eqvlat_fawa` adds the circulation poleward of the latitude to the circulation below
  the contour, which is right only if the global circulation is zero. An offset of the vorticity changes FAWA.
* C109 (`C109_refuted`, `C109_bounds_partial`): the default `nlat_s = nlat // 2` leaves out the equator row of a grid with an odd number of
  latitudes. Profile and wave activity are zero there for every field.
* C113: `num_of_iter <= maxits` does not bound the residual of the wind returned. `anorm` adds the residuals of the points treated in the current sweep only (one colour of the chequerboard). The residuals of the other colour, changed by the same sweep and, in the first sweeps, by the boundary values set after each sweep, are not looked at.
* C112: if the right-hand side vanishes at all interior points, `anorm < eps * anormf` reads `anorm < 0` and is never true; such a call always reports failure.
* C116: the reference profile is not continuous in the field: `np.digitize` moves a whole cell to another bin when its value crosses an edge, and the profile jumps by up to a contour interval. Fine partitions make the jump small.
* C122: `t_field` is multiplied by the Exner factor before its shape is checked (lines 127, 145). A 2D temperature `(nlat, nlon)` is accepted and used on every level; a temperature on the wrong number of levels raises `ValueError`, not `TypeError`.
* C124: with `data_on_evenly_spaced_pseudoheight_grid=True` the order of the levels is not checked (lines 110-115): levels from the top downward give `dz < 0` and a negative normalisation. `kmax <= 2` is accepted and gives a normalisation of zero.
* C125: `UnivariateSpline` is called with its default smoothing (lines 259-260). Deviations of the level means from a cubic with a sum of squares below the number of levels are discarded: a 1.5 K deviation in the middle of five levels has no influence on the profile or on the static stability. The threshold is in K², so the result depends on the unit of temperature.
* C126: `ncforce` is registered with `ylat_ref_states` (xarrayinterface.py line 232), but the field method returns the forcing on all latitudes. With `northern_hemisphere_results_only=True`, `QGDataset.compute_ncforce_from_heating_rate` always ends in `AssertionError`.
* C130: the southern branch (`is_nhem=False`) of the flux routines keeps the row comparison of the northern one (`jj >= j` with `qe <= 0`), so the anomaly of the row itself is counted on the other side of the contour than in the mirrored northern call; lines 173-178 of compute_flux_dirinv.f90 write northern winds into row `jb` of the southern `ep2`, `ep3`; and `uref(j+1)` with `j = nd-jb` is outside the array. The branch is exported but has no caller in the package.
* C132: `fawa` of `compute_qref_and_fawa_first` (line 157) reads elements of the local arrays `cref` and `cbar` that are never assigned: row `nd`, levels 1 and `kmax`, and rows that fall into no partition. `QGFieldNHN22` only passes `fawa` to `_check_nan`.
* C133: in single precision the weight `aa` of the pole in `compute_lwa_only_nhn22` and `compute_flux_dirinv_nshem` is about `-4.4e-8 a dphi` instead of 0, because `acos(-1.)` is larger than pi. `astar2`, and with it `lwa` of `compute_layerwise_lwa_fluxes` and `lwa_baro`, can be negative.
* C134: `np.arange(0, kmax*dz, dz)` in the NHN22 solver returns `kmax + 1` heights for some spacings, e.g. 49 levels of 750.0000000000002 m. The f2py wrapper then raises because the arrays differ in length. `self.height` would have the right length.
* C135, C136: with an equator in the grid, properties return views of internal arrays: earlier results change with later calls, and edits by the user leak back into the object. On even grids both are fine. The tuple returned by `compute_lwa_and_barotropic_fluxes` holds views on all grids.
* C138: `u_field`, `v_field` (with an equator) and `ylat` are kept by reference.
* C139: with `northern_hemisphere_results_only=True` the equator row holds the northern call's values, without it the southern call's. For `QGFieldNH18` the two differ, e.g. `lwa` is positive in one mode and 0 in the other.
* C140: on a constant level the partition index is `int(0/0)`.
* C141: on accepted grids whose equator is not the middle row `compute_reference_states` writes `qbar`, `tbar`, `ubar` outside their bounds (jd = `equator_idx`); `QGFieldNHN22` does so on grids with an even number of rows that contain 0 and on coarse grids (fewer than `2*eq_boundary_index + 5` rows).
* C142: in single precision the grid cells at the south pole have a negative area, because the stored pi exceeds pi.
* C143: for some even numbers of rows (78, 156, 312, 322, 338, 350, ...) `np.linspace(-90, 90, n+1)` in double precision does not contain 0, and the constructor fails with `IndexError`.
- C145: the reference QGPV of a zonal state is displaced towards the equator because lines 92-97 of `compute_reference_states.f90` leave out the area of the first partition; if the last row before the pole lies in that partition its reference value is that of a row further south.
- C146: the linear extrapolation to the pole row (line 56 of `upward_sweep.f90`) does not preserve the ordering of two reference winds that the elliptic equation gives in all other rows.
* C148: `plot_figure4` has no zonal convergence in columns 0 and 359 (`range(1, 359)`, line 693), and the tendency of its last slot reads slot 120, which `sample_run_script.py` does not write.
* C150: line 1071 of `graph_plot_module.py` reads `dlwap` where `dlwap2` is meant.
* C152: `_compute_lwa_flux_dirinv` (oopinterface.py lines 1906-1927) leaves out `ncforce`, which `compute_flux_dirinv_nshem` requires.
* C153: `cal_lwa_budget_NHN22.py` and `cal_ncforce_loop.py` reverse descending latitudes and ascending pressures but not the fields; `sample_run_script.py` reverses the fields even if the coordinates are in order; `predigest_data.py` does not test the order.
* C154: `topography` is NaN between the lowest model level and the ground, though its description says 1 above topography.
* C155: methods of `QGDataset` stop at the first field that raises; the variables of the fields behind it are collected as zeros.
* C156: `hemisphere_to_globe` keeps `v` on the equator, so wave activity is not identical on both hemispheres if `v` depends on longitude there.
* C157: `QGDataset(array, dataset, …)` is accepted by the type assertions but fails when the dataset is renamed.
* C158: `compare_two_fields_on_map(…, diff_factor=None)` is documented and raises `TypeError`; equal constant fields are refused; differences above the scale are left blank.
* C160: the area of the first partition (`aan(1) = 0` instead of `an(1)`) is dropped. For a field with a plateau at its maximum the error of `qref` does not go to zero on finer grids.
* C164: with `data_on_evenly_spaced_pseudoheight_grid=True` and a lowest level above 1000 hPa, QGPV uses the heights of the data and both solvers use heights that start at 0 (`dz*(k-1)`). The reference wind and temperature are then in balance for a gas whose R and cp are `(1000 hPa/p0)^κ` times those given, not for the gas of the data; compared with the reference temperature gradient, its shear is too large by that factor.
* C166: `u(1,k) = ckref(jb+1,k)/(2.*pi*a)-om*a*cos(phi0)` (`matrix_b4_inversion.f90:57`, also `upward_sweep.f90:47`). The unknown is the wind times `cos(phi0)` (it is divided by the cosine at the end, and the disabled line above reads `ubar*cos(phi0)`), so Kelvin's circulation needs `om*a*cos(phi0)**2`. The boundary value is too small by `om*a*cos(phi0)*(1-cos(phi0))`: 1.8 m/s at 5 degrees, 4 m/s at 7.5 degrees, for air at rest too.
* **C169** `compute_qgpv.f90` multiplies the stretching term by the zonal mean of the absolute vorticity where the text of the class (and `compute_qgpv_direct_inv.f90`) has the Coriolis parameter, so its QGPV has another limit on fine grids (`Atmos.C169_refuted`).
* C184: the returned terms close the budget only together with two that are not returned: the heat flux through the top of the domain, and what displaced air carries through the equator (and, for a reference state that changes, its contribution).
* C188: where the field is NaN, `bigsigma` of `basis.lwa` is a number, summed over the remaining cells, while the wave activity is NaN.
* C190: with a missing value, FAWA of `eqvlat_fawa` is a number poleward of the gap: `cref` is 0 there because the bins are NaN and collect no cell, so only the area integral of the field is left.
* C191: NaN in QGPV fails both comparisons of the wave activity loops (`compute_lwa_only_nhn22.f90` lines 68 and 75, `compute_flux_dirinv.f90` lines 98 and 107), so the cell counts as undisplaced and the wave activity is too small without a sign of it.
* C198: `theta_lwa` reverses the rows for the northern profile but calls `basis.lwa` with the rows from south to north (wrapper.py lines 563-572), so air in its place counts as displaced. The result does not tend to zero for wave-free temperatures (`C198_wave_free`).
* C201: `integration_seconds` is `(stop - start) / np.timedelta64(1000000000)` (xarrayinterface.py line 734). The divisor has no unit and takes that of the difference, so the attribute is in seconds only for `datetime64[ns]`; for `datetime64[s]` it is too small by a factor of 10^9. With a time coordinate of numbers the line raises `TypeError` after the terms were computed. That a unitless `timedelta64` takes the other operand's unit, and that numbers cannot be divided by it, are facts about numpy that the model assumes.
* C204: `update_new_variable_to_pressure` passes `attrs = default_attrs.update({...})`, which is `None` (line 145 of the script for hybrid levels). The converted variables and `topo` have no attributes, not even units, and the description is added to the variable of the input dataset instead.
* Documentation only: the docstring of `basis.lwa` names the cyclonic component first. The code puts the anticyclonic
  component at index 0.

## 5. Coverage

Which part of the source each model file describes. Claims per function are in the `anchors` of `properties.jsonl`.

| Source (`/repo/src/falwa`) | Functions | Model |
|---|---|---|
| `basis.py` | `eqvlat_fawa`, `eqvlat_vgrad` | `Eqvlat`; profile with rounding `EqvlatRounding` |
| | `lwa` | `Lwa`; with rounding `Rounding` |
| `barotropic_field.py` | all of `BarotropicField` | `Barotropic` |
| `wrapper.py` | all functions | `Wrapper` (arguments filled in), `Defaults` (signatures) |
| `utilities.py` | all functions | `Utilities` |
| `data_storage.py` | descriptors, axis order, storages, `qref_correct_unit` | `Storage`, `Misc` |
| `stat_utils.py`, `preprocessing.py` | all functions | `Misc` |
| `oopinterface.py` | constructor: checks and grid | `Grid`, `Construct` |
| | constructor: interpolators, masked data, profiles, prefactor | `Interp`, `Construct`, `Spline` |
| | order of calls, errors, what each attribute was computed from | `Protocol` |
| | array shapes | `Shapes` |
| | which arrays share memory | `Alias` |
| | values from input fields to fluxes, both classes and hemispheres | `Pipeline` |
| | layerwise fluxes, stretching term, `flux_vector_phi_baro` | `Layerwise` |
| | `compute_ncforce_from_heating_rate`, `_interp_back`, `_return_interp_variables` | `Interp` |
| | `_nonconvergence_notification`, `compute_lwa_only`, wrapper of the direct solver | `Misc`, `Pipeline`, `DirectInv`, `Arange` |
| `xarrayinterface.py` | names, flattening and restoring, flipping, budget, `hemisphere_to_globe` | `Xarray`; time coordinate of `integrate_budget` `TimeCoord` |
| | arguments of `QGDataset`: arrays and datasets, merge, names of the coordinates | `DatasetArgs` |
| | labels and dimensions of every variable of `QGDataset` | `Dataset` |
| | order of calls and exceptions in the methods of `QGDataset` | `DatasetRun` |
| `f90_modules/compute_qgpv.f90`, `compute_qgpv_direct_inv.f90` | whole routines | `Qgpv`; with rounding `QgpvRounding` |
| `f90_modules/compute_reference_states.f90` | area analysis | `AreaAnalysis`; partition areas with rounding `AreaRounding`; reference QGPV with rounding `InterpRounding` |
| | relaxation, wind, temperature | `RefState` |
| `f90_modules/compute_qref_and_fawa_first.f90` | area analysis of QGPV and of vorticity | `AreaAnalysis` |
| | FAWA | `QGFawa` |
| | normalisation, top boundary | `DirectInv` |
| `f90_modules/matrix_b4_inversion.f90`, `matrix_after_inversion.f90`, `upward_sweep.f90` | whole routines | `DirectInv` |
| `f90_modules/compute_flux_dirinv.f90`, `compute_lwa_only_nhn22.f90` | `is_nhem = .true.` | `Flux` |
| | `is_nhem = .false.` | `SouthBranch` |
| | wave activity loop with rounding | `FluxRounding` |
| all nine built routines of `f90_modules` | array subscripts | `Bounds` |
| `legacy/beta_version.py` | `input_jk_output_index`, `solve_uref_both_bc` | `Legacy`, `Misc` |
| `/repo/scripts/nhn_grl2022/graph_plot_module.py` | arrays drawn in figures 3, 4 and 5, experiments of figure 5 | `Grl` |
| `/repo/src/falwa/oopinterface.py` (calls of the nine compiled routines), signatures in `/repo/src/falwa/f90_modules/*.f90` | binding of arguments by f2py, number of results; `_compute_lwa_flux_dirinv`; loop of `sample_run_script.py` | `F2py` |
| `netcdf_utils.py` | variables and times of the extracted file | `TimeSlice` |
| `/repo/scripts/lubis_et_al_2025`, `sample_run_script.py`, `predigest_data.py`, hybrid level script | order of the axes handed over; interpolation to pressure levels and topography array, without Poisson filling | `Scripts`; attributes of converted variables `Attributes` |

Not modelled:

* `plot_utils.py` apart from the colour scales of the two comparison figures (`Plot`): drawing. Of `netcdf_utils.py`: encodings and attributes of the files (`TimeSlice` has the rest).
* `QGFieldBase._check_nan`: prints only.
* Attributes (`attrs`) of xarray variables, except `integration_seconds` (`TimeCoord`) and those set by the hybrid level script (`Attributes`).
* `legacy/beta_version.py`: `extrap1d`, which nothing calls, `use_real_Data=False`, and the plots.
* `f90_modules/interpolate_fields_direct_inv.f90`: neither built nor called.
