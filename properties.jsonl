{"id": "C01", "title": "Local wave activity is never negative", "statement": "For any vorticity field and any reference profile, every value returned by basis.lwa is >= 0 as long as the length elements dmu are >= 0. This holds for the total field and for each of the two partitioned components.", "quantifier": "all grid sizes, all real vorticity fields, all reference profiles, all non-negative dmu, all grid points", "why_tests_cant": "A test sees finitely many fields; the claim ranges over all real fields, including non-monotone reference profiles.", "anchors": ["src/falwa/basis.py:lwa"]}
{"id": "C02", "title": "Local wave activity equals the displaced-contour integral", "statement": "At every latitude row and longitude, basis.lwa returns the sum, over the rows of that longitude, of |q - Q(row)| dmu restricted to the rows where the contour Q(row) is displaced: rows poleward of it with q < Q and rows at or equatorward of it with q > Q (Huang and Nakamura 2016, eq. 13).", "quantifier": "all grid sizes, all fields, all profiles, every row including the last one", "why_tests_cant": "The defining identity is over all fields; a regression value on one field does not pin the masks and signs down.", "anchors": ["src/falwa/basis.py:lwa"]}
{"id": "C03", "title": "A wave-free state has zero wave activity, and only such a state has", "statement": "If the vorticity is zonally symmetric, non-decreasing with latitude and equal to the reference profile, basis.lwa returns zero everywhere. Conversely, with strictly positive dmu, a zero at a grid point means no contour is displaced across that row at that longitude.", "quantifier": "all grid sizes, all monotone profiles for the first part; all fields and all rows but the last for the converse", "why_tests_cant": "Both directions are universally quantified; the converse cannot be observed by sampling.", "anchors": ["src/falwa/basis.py:lwa"]}
{"id": "C04", "title": "Partitioned components add up to the total", "statement": "basis.lwa called with return_partitioned_lwa=True returns two fields whose sum is exactly the field returned with return_partitioned_lwa=False for the same arguments, and the component called anticyclonic only ever collects deficits poleward of the row while the one called cyclonic only collects surpluses at or equatorward of it.", "quantifier": "all fields, profiles, dmu, grid sizes, grid points", "why_tests_cant": "Equality of two modes for all inputs is a relation between executions, not a single expected value.", "anchors": ["src/falwa/basis.py:lwa"]}
{"id": "C05", "title": "Wave activity is local in longitude and rotates with the field", "statement": "The wave activity at a longitude depends only on the vorticity at that longitude and on the reference profile. Rotating or permuting longitudes of the input permutes the output in the same way.", "quantifier": "all fields, all permutations of longitudes (including every rotation)", "why_tests_cant": "There are factorially many permutations and uncountably many fields.", "anchors": ["src/falwa/basis.py:lwa"]}
{"id": "C06", "title": "Units and offset laws of wave activity", "statement": "Multiplying vorticity and reference profile by a non-negative constant multiplies the wave activity by it. Adding the same constant to both leaves the wave activity unchanged. Multiplying dmu by a constant multiplies the wave activity by it.", "quantifier": "all fields, profiles, non-negative factors, all offsets", "why_tests_cant": "A change of units is a universally quantified relation between two runs.", "anchors": ["src/falwa/basis.py:lwa"]}
{"id": "C07", "title": "The non-conservative-force term is linear and vanishes without waves", "statement": "The second result of basis.lwa is linear in ncforce (sums and scalar multiples), does not influence the first result, is None exactly if ncforce is None, and is zero at each grid point where no contour is displaced.", "quantifier": "all fields, profiles, forcings and scalars", "why_tests_cant": "Linearity and non-interference quantify over all forcings.", "anchors": ["src/falwa/basis.py:lwa"]}
{"id": "C08", "title": "The reference profile is non-decreasing with latitude and stays within the data range", "statement": "For ascending latitudes, non-negative cell areas whose total does not exceed the sphere, and n_points >= 2, the profile returned by basis.eqvlat_fawa (and so BarotropicField.equivalent_latitudes) is non-decreasing in latitude and lies between the minimum and the maximum of the vorticity.", "quantifier": "all fields, all non-negative area tables within the sphere, all ascending latitude grids, all resolutions n_points >= 2", "why_tests_cant": "Tests check one field; monotonicity must hold for every field, including ones with ties and empty bins.", "anchors": ["src/falwa/basis.py:eqvlat_fawa", "src/falwa/barotropic_field.py:BarotropicField.equivalent_latitudes"]}
{"id": "C09", "title": "The reference profile depends only on the distribution of (value, area) pairs", "statement": "Rearranging the cells of the field together with their areas in any way leaves the reference profile of basis.eqvlat_fawa unchanged. In particular rotating the field in longitude on a zonally uniform area table changes nothing.", "quantifier": "all permutations of the grid cells, all fields", "why_tests_cant": "Invariance under all permutations cannot be enumerated.", "anchors": ["src/falwa/basis.py:eqvlat_fawa"]}
{"id": "C10", "title": "The two equivalent-latitude routines agree", "statement": "basis.eqvlat_vgrad returns the same reference profile as basis.eqvlat_fawa for the same field, area, latitudes and resolution, whatever vgrad is.", "quantifier": "all fields, areas, latitude grids, resolutions, with and without vgrad", "why_tests_cant": "Two code paths with different loop bounds must agree on every input.", "anchors": ["src/falwa/basis.py:eqvlat_fawa", "src/falwa/basis.py:eqvlat_vgrad"]}
{"id": "C11", "title": "No area is created or lost in the equivalent-latitude analysis", "statement": "The cumulative area used for the profile starts at 0, never decreases, and ends at the total area minus the area of the cells that attain the maximum. With areas that fit in the sphere every argument of arcsin lies in [-1, 1], so no NaN arises.", "quantifier": "all fields, all non-negative area tables, all resolutions n_points >= 2", "why_tests_cant": "A conservation law over all inputs; a missed boundary bin only shows for particular fields.", "anchors": ["src/falwa/basis.py:eqvlat_fawa"]}
{"id": "C12", "title": "The default cell areas of BarotropicField never exceed the sphere", "statement": "With default area and dphi and a regular pole-to-pole latitude grid, the total of the cell areas is at most 4 pi a^2, so equivalent_latitudes never produces NaN on a regular grid of any resolution.", "quantifier": "all numbers of latitudes >= 3 and of longitudes >= 1, all planet radii > 0", "why_tests_cant": "The bound is an inequality about cot for every resolution; a test tries a few resolutions.", "anchors": ["src/falwa/barotropic_field.py:BarotropicField.__init__", "src/falwa/basis.py:eqvlat_fawa"]}
{"id": "C13", "title": "The reference profile follows changes of unit of the field", "statement": "Adding a constant to the vorticity adds it to the profile of basis.eqvlat_fawa; multiplying the vorticity by a positive constant multiplies the profile by it. Scaling areas and squared planet radius together changes nothing.", "quantifier": "all fields, all offsets, all positive factors", "why_tests_cant": "Relation between pairs of runs over a continuum of factors.", "anchors": ["src/falwa/basis.py:eqvlat_fawa"]}
{"id": "C14", "title": "Hemispheric analysis treats both hemispheres alike", "statement": "Mirroring the field about the equator with a sign change mirrors the reference profile of qgpv_eqlat_lwa with a sign change, and mirrors its wave activity.", "quantifier": "all fields on grids with a symmetric area table and symmetric dmu, all nlat_s up to half the grid", "why_tests_cant": "A symmetry of the program over all inputs; the row that belongs to both index sets only shows up in a proof.", "anchors": ["src/falwa/wrapper.py:qgpv_eqlat_lwa", "src/falwa/basis.py:lwa"]}
{"id": "C15", "title": "All hemispheric wrappers return the same reference profile", "statement": "eqvlat_hemispheric, qgpv_eqlat_lwa, qgpv_eqlat_lwa_ncforce and qgpv_eqlat_lwa_options (without vgrad) return the same reference profile for the same field, area and latitudes, and the last three return the same wave activity.", "quantifier": "all fields, areas, latitude grids, nlat_s, n_points", "why_tests_cant": "Agreement of several entry points on every input is not a pointwise test.", "anchors": ["src/falwa/wrapper.py:eqvlat_hemispheric", "src/falwa/wrapper.py:qgpv_eqlat_lwa", "src/falwa/wrapper.py:qgpv_eqlat_lwa_ncforce", "src/falwa/wrapper.py:qgpv_eqlat_lwa_options"]}
{"id": "C16", "title": "The vgrad option returns the bracket average", "statement": "eqvlat_bracket_hemispheric, and qgpv_eqlat_lwa_options with vgrad, return the profile together with the documented area average of vgrad instead of raising.", "quantifier": "all arguments accepted by the signatures", "why_tests_cant": "No test passes vgrad; the claim is that no argument at all gets through.", "anchors": ["src/falwa/wrapper.py:eqvlat_bracket_hemispheric", "src/falwa/wrapper.py:qgpv_eqlat_lwa_options", "src/falwa/basis.py:eqvlat_fawa"]}
{"id": "C17", "title": "A prescribed reference profile gives the same wave activity as the derived one", "statement": "Calling qgpv_input_qref_to_compute_lwa with the profile returned by qgpv_eqlat_lwa gives the wave activity returned by qgpv_eqlat_lwa, and barotropic_input_qref_to_compute_lwa with the profile of barotropic_eqlat_lwa gives that of barotropic_eqlat_lwa.", "quantifier": "all fields, areas, grids, nlat_s", "why_tests_cant": "Consistency of two call sequences over all inputs, including the return types.", "anchors": ["src/falwa/wrapper.py:qgpv_input_qref_to_compute_lwa", "src/falwa/wrapper.py:barotropic_input_qref_to_compute_lwa", "src/falwa/wrapper.py:qgpv_eqlat_lwa", "src/falwa/wrapper.py:barotropic_eqlat_lwa"]}
{"id": "C18", "title": "Zonal convergence conserves the zonal total and returns zero at the poles", "statement": "On each latitude the values returned by zonal_convergence sum to zero over longitude, a zonally uniform field gives zero, and rows whose cosine is within the tolerance of zero are returned as zero.", "quantifier": "all fields, all nlon >= 3, all cosine tables, tolerances, spacings", "why_tests_cant": "A telescoping identity over all fields and sizes; the pole rows depend on a tolerance branch.", "anchors": ["src/falwa/utilities.py:zonal_convergence"]}
{"id": "C19", "title": "Zonal convergence is linear and commutes with rotation", "statement": "zonal_convergence is linear in the field and rotating the field in longitude rotates the result.", "quantifier": "all fields, all scalars, all rotations", "why_tests_cant": "Relations between runs, over all rotations including those that move the periodic seam.", "anchors": ["src/falwa/utilities.py:zonal_convergence"]}
{"id": "C20", "title": "Meridional divergence is a consistent difference quotient on every row", "statement": "If field*cos(lat) is affine in latitude, meridional_divergence returns exactly its slope divided by (radius * cos) on every row with non-vanishing cosine. The operator is linear, and the cosine-weighted sum over interior rows reduces to boundary values.", "quantifier": "all affine products, all grid sizes >= 3, all rows; all fields for linearity and summation", "why_tests_cant": "Exactness on a whole function class on each row, boundary rows included.", "anchors": ["src/falwa/utilities.py:meridional_divergence"]}
{"id": "C21", "title": "The discrete curl of a discrete gradient vanishes", "statement": "If u*cos(lat) and v are the centred differences of one potential in longitude and in latitude, curl_2d returns zero at every grid point; curl_2d is linear, zero on the first and last row, and commutes with rotation in longitude.", "quantifier": "all potentials, all grid sizes, all interior points including the periodic seam", "why_tests_cant": "A vector identity for every potential on every grid.", "anchors": ["src/falwa/utilities.py:curl_2d"]}
{"id": "C22", "title": "The vertical-derivative operator is linear and exact on its kernel", "statement": "z_derivative_of_prod is linear in gfunc, returns zero if density*g/static stability does not change with height, and returns multiplier times the slope if that quantity is affine in height, on every level including the two boundary levels; its latitude table has 2*equator_idx - 1 columns.", "quantifier": "all stabilities, decay tables, gfunc and multipliers, all sizes kmax >= 2", "why_tests_cant": "Quantified over all arrays; the boundary branches use a different formula.", "anchors": ["src/falwa/utilities.py:z_derivative_of_prod"]}
{"id": "C23", "title": "Static stability reproduces affine temperature profiles", "statement": "If potential temperature is affine in height with the same slope at every point, static_stability returns that slope at every level for both hemispheres, boundary levels included. A uniform temperature gives 0. The hemispheric means lie between the smallest and largest temperature of the hemisphere and each hemisphere's results depend only on its own rows.", "quantifier": "all affine profiles, all height grids with distinct levels, all positive areas, all hemispheric extents", "why_tests_cant": "Exactness for a whole class of profiles, and non-interference between hemispheres, are universal claims.", "anchors": ["src/falwa/utilities.py:static_stability"]}
{"id": "C24", "title": "QGPV of a resting reference atmosphere is the absolute vorticity", "statement": "compute_qgpv_givenvort returns exactly the absolute vorticity on every row if potential temperature equals the hemispheric mean profile everywhere, and the stretching term is linear in the departure from the mean profile.", "quantifier": "all profiles, stabilities, vorticities, grids with even and odd numbers of latitudes", "why_tests_cant": "Rows not covered by either hemispheric slice are read uninitialised; whether such rows exist depends on parity and nlat_s.", "anchors": ["src/falwa/utilities.py:compute_qgpv_givenvort"]}
{"id": "C25", "title": "BarotropicField results do not depend on the order or number of reads", "statement": "For an object whose attributes are not changed, every sequence of reads of equivalent_latitudes and lwa returns the same values as a single read on a fresh object.", "quantifier": "all finite sequences of property reads", "why_tests_cant": "All histories; caching bugs depend on the order of reads.", "anchors": ["src/falwa/barotropic_field.py:BarotropicField.equivalent_latitudes", "src/falwa/barotropic_field.py:BarotropicField.lwa"]}
{"id": "C26", "title": "BarotropicField never mixes two vorticity fields", "statement": "After pv_field is replaced, the pair (equivalent_latitudes, lwa) read next belongs to one and the same field: either both follow the new field or both the old one.", "quantifier": "all interleavings of reads and assignments of pv_field", "why_tests_cant": "A property of all histories; tests never assign pv_field after a read.", "anchors": ["src/falwa/barotropic_field.py:BarotropicField._compute_eqvlat", "src/falwa/barotropic_field.py:BarotropicField._compute_lwa"]}
{"id": "C27", "title": "Northern-hemisphere storage round trip", "statement": "A northern-hemisphere array stored in a result storage is read back unchanged through the northern accessor, lands in the last rows of the global array in the same order, and no other row changes.", "quantifier": "all arrays with nlat//2+1 latitudes in global mode and with all latitudes of the storage in northern-only mode, all previous contents, both modes of northern_hemisphere_results_only, all sizes of the other dimensions", "why_tests_cant": "Frame condition over all contents; slice arithmetic with negative starts.", "anchors": ["src/falwa/data_storage.py:NHemProperty"]}
{"id": "C28", "title": "Southern-hemisphere storage mirrors and never leaks", "statement": "A southern-hemisphere result (equator first) is stored in the first rows with latitude reversed, so that row j of the input is at global row nlat//2 - j, and reading it gives it in global (south to north) order. The strictly northern rows do not change, and after a northern and a southern store each hemisphere holds its own data with the equator row holding the last one written.", "quantifier": "all arrays, all orders of stores, all odd nlat", "why_tests_cant": "All interleavings of stores; overlap at the equator.", "anchors": ["src/falwa/data_storage.py:SHemProperty", "src/falwa/data_storage.py:NHemProperty"]}
{"id": "C29", "title": "Southern accessors are refused without side effects in northern-only mode", "statement": "If northern_hemisphere_results_only is set, any southern read or write raises InvalidCallOfSHemVariables and leaves all stored data unchanged.", "quantifier": "all storages in northern-only mode, all values, all histories", "why_tests_cant": "Absence of side effects on the error path for all states.", "anchors": ["src/falwa/data_storage.py:SHemProperty", "src/falwa/data_storage.py:InvalidCallOfSHemVariables"]}
{"id": "C30", "title": "Every declared storage accessor is usable", "statement": "Each hemispheric accessor declared on a storage class refers to an array that the class allocates, so that reading it after construction succeeds.", "quantifier": "all declared accessors of all storage classes", "why_tests_cant": "A test reads the accessors it knows about; the claim covers all declared ones.", "anchors": ["src/falwa/data_storage.py:LayerwiseFluxTermsStorage", "src/falwa/data_storage.py:BarotropicFluxTermsStorage", "src/falwa/data_storage.py:ReferenceStatesStorage"]}
{"id": "C31", "title": "Index order conversion is lossless", "statement": "fortran_to_python and python_to_fortran are inverse to each other and move element (i, j, k) to (k, j, i).", "quantifier": "all arrays of any shape", "why_tests_cant": "All shapes and contents.", "anchors": ["src/falwa/data_storage.py:DerivedQuantityStorage.fortran_to_python", "src/falwa/data_storage.py:DerivedQuantityStorage.python_to_fortran"]}
{"id": "C32", "title": "Latitude input is accepted exactly if documented", "statement": "The QGField constructor accepts a latitude array exactly if its first step is not descending and either has an even number of points none of which is the equator, or contains the equator exactly once; otherwise it raises TypeError. After acceptance the analysis grid contains the equator at the recorded index, and the number of analysis latitudes is the input number, plus one for even grids.", "quantifier": "all latitude arrays with at least two entries", "why_tests_cant": "Decision logic over all arrays.", "anchors": ["src/falwa/oopinterface.py:QGFieldBase._check_and_flip_ylat"]}
{"id": "C33", "title": "An accepted latitude grid is symmetric enough for the hemispheric split", "statement": "Whenever the constructor accepts a latitude array, the number of analysis latitudes is odd and the equator is in the middle, so that the northern and the southern half have the same number of rows as all later steps assume.", "quantifier": "all accepted latitude arrays", "why_tests_cant": "Counterexamples are unusual grids that no test supplies; the claim is over all accepted inputs.", "anchors": ["src/falwa/oopinterface.py:QGFieldBase._check_and_flip_ylat", "src/falwa/oopinterface.py:QGFieldBase.__init__"]}
{"id": "C34", "title": "The kmax bound is exact", "statement": "For levels in descending order the constructor accepts kmax exactly if the top input level reaches (kmax-1)*dz, and the maximum valid kmax quoted in the error message is itself accepted while one more is rejected.", "quantifier": "all level arrays, scale heights > 0, dz > 0, kmax", "why_tests_cant": "The message is computed by different arithmetic (floor division) than the check; agreement must hold for all reals.", "anchors": ["src/falwa/oopinterface.py:QGFieldBase._check_valid_plev"]}
{"id": "C35", "title": "Accepted grids are monotone", "statement": "If the constructor accepts ylat and plev then latitudes are strictly ascending and pressure strictly descending.", "quantifier": "all accepted arrays", "why_tests_cant": "Only the first difference is inspected; the claim is about all differences.", "anchors": ["src/falwa/oopinterface.py:QGFieldBase._check_valid_plev", "src/falwa/oopinterface.py:QGFieldBase._check_and_flip_ylat"]}
{"id": "C36", "title": "Flux results are only available after a converged reference state", "statement": "compute_lwa_and_barotropic_fluxes completes only if interpolate_fields was called before and the latest non-converged reference-state computation never happened: for every call sequence, completion implies an earlier interpolate_fields followed by a compute_reference_states that converged, and otherwise ValueError is raised and no stored result changes.", "quantifier": "all finite sequences of method calls with all outcomes of the solver", "why_tests_cant": "All histories, including retries after failures.", "anchors": ["src/falwa/oopinterface.py:QGFieldBase.compute_reference_states", "src/falwa/oopinterface.py:QGFieldBase.compute_lwa_and_barotropic_fluxes"]}
{"id": "C37", "title": "A reference state that fails to converge is always signalled", "statement": "If the iterative solver needs more than the allowed iterations in either hemisphere, compute_reference_states raises ValueError or warns and nonconvergent_uref is True afterwards; and it is False if the solver converged within maxit iterations.", "quantifier": "all call sequences and solver outcomes, all maxit", "why_tests_cant": "Off-by-one at the iteration limit and stickiness over histories.", "anchors": ["src/falwa/oopinterface.py:QGFieldNH18._nonconvergence_notification", "src/falwa/oopinterface.py:QGFieldNH18._compute_reference_states", "src/falwa/f90_modules/compute_reference_states.f90:compute_reference_states"]}
{"id": "C38", "title": "A repeated successful computation clears an earlier failure", "statement": "After a failed reference-state computation, re-running interpolate_fields and compute_reference_states with a converging solver makes compute_lwa_and_barotropic_fluxes available again.", "quantifier": "all histories with at least one failure", "why_tests_cant": "A liveness-like claim over histories.", "anchors": ["src/falwa/oopinterface.py:QGFieldNH18._nonconvergence_notification", "src/falwa/oopinterface.py:QGFieldBase.compute_reference_states"]}
{"id": "C39", "title": "Layerwise fluxes are guarded", "statement": "Reading ua1, ua2, ep1, ep2, ep3 or stretch_term raises ValueError exactly until the first completed compute_layerwise_lwa_fluxes; a completed call implies that fields were interpolated and reference states computed before.", "quantifier": "all finite call sequences", "why_tests_cant": "All histories.", "anchors": ["src/falwa/oopinterface.py:QGFieldBase._compute_layerwise_lwa_fluxes_wrapper", "src/falwa/oopinterface.py:QGFieldBase.ua1"]}
{"id": "C40", "title": "The column average of a constant is that constant", "statement": "The barotropic (density-weighted column) average reported as u_baro of a wind that does not vary with height is that wind, both after compute_lwa_and_barotropic_fluxes and after compute_lwa_only.", "quantifier": "all kmax >= 3, dz > 0, scale heights > 0, all constant winds", "why_tests_cant": "Normalisation identity for all vertical grids; the two code paths use different level ranges.", "anchors": ["src/falwa/oopinterface.py:QGFieldBase._compute_prefactor", "src/falwa/oopinterface.py:QGFieldBase._vertical_average", "src/falwa/f90_modules/compute_lwa_only_nhn22.f90:compute_lwa_only_nhn22"]}
{"id": "C41", "title": "The column average is linear, monotone and ordered", "statement": "The barotropic average is linear in the field and keeps inequalities between fields.", "quantifier": "all fields, scalars, vertical grids", "why_tests_cant": "Universal algebraic laws.", "anchors": ["src/falwa/oopinterface.py:QGFieldBase._vertical_average"]}
{"id": "C42", "title": "QG wave activity equals the displaced-contour integral and is never negative", "statement": "The three-dimensional LWA of QGField (lwa, and its cyclonic and anticyclonic parts) equals, at each interior level and analysed latitude, the sum over hemispheric rows of |q - Qref| a cos(phi) dphi over the displaced rows, and each part is >= 0; on levels and rows that are not analysed it is 0.", "quantifier": "all QGPV fields, reference states, grid sizes and boundary indices", "why_tests_cant": "Loop nest over all sizes; defining identity for all fields.", "anchors": ["src/falwa/f90_modules/compute_flux_dirinv.f90:compute_flux_dirinv_nshem", "src/falwa/f90_modules/compute_lwa_only_nhn22.f90:compute_lwa_only_nhn22"]}
{"id": "C43", "title": "Both LWA entry points agree", "statement": "compute_lwa_only and compute_lwa_and_barotropic_fluxes give the same lwa and lwa_baro for the same fields and reference states.", "quantifier": "all fields, both hemispheres", "why_tests_cant": "Two separately written loop nests must agree on every input.", "anchors": ["src/falwa/f90_modules/compute_flux_dirinv.f90:compute_flux_dirinv_nshem", "src/falwa/f90_modules/compute_lwa_only_nhn22.f90:compute_lwa_only_nhn22", "src/falwa/oopinterface.py:QGFieldBase.compute_lwa_only"]}
{"id": "C44", "title": "F1 is the reference wind times the wave activity", "statement": "ua1 = uref * lwa and adv_flux_f1 is its column average; flux_vector_lambda_baro = adv_flux_f1 + adv_flux_f2 + adv_flux_f3, and convergence_zonal_advective_flux is the zonal convergence of that sum, so it sums to zero over each latitude circle away from the pole rows.", "quantifier": "all fields, reference states and grids", "why_tests_cant": "Identities between outputs over all inputs.", "anchors": ["src/falwa/f90_modules/compute_flux_dirinv.f90:compute_flux_dirinv_nshem", "src/falwa/oopinterface.py:QGFieldBase.compute_lwa_and_barotropic_fluxes"]}
{"id": "C45", "title": "Without eddies all fluxes vanish", "statement": "If at every level the zonal wind and potential temperature equal their references on all rows from the boundary row to the pole, the meridional wind is 0 everywhere, and QGPV equals its monotone reference, then LWA, F1, F2, F3, both momentum-flux terms, their divergence and the heat flux are zero on every row.", "quantifier": "all such states, all grid sizes and boundary indices", "why_tests_cant": "A class of states of unbounded size; all accumulators must cancel.", "anchors": ["src/falwa/f90_modules/compute_flux_dirinv.f90:compute_flux_dirinv_nshem"]}
{"id": "C46", "title": "The flux routine stays inside its arrays", "statement": "compute_flux_dirinv reads and writes every array within its declared bounds.", "quantifier": "all grid sizes and all equatorward boundary indices jb >= 0", "why_tests_cant": "Out-of-bounds accesses are silent; the claim is about every loop iteration.", "anchors": ["src/falwa/f90_modules/compute_flux_dirinv.f90:compute_flux_dirinv_nshem"]}
{"id": "C47", "title": "Rotating the atmosphere rotates the results", "statement": "Rotating all input fields in longitude rotates QGPV, LWA and every local flux term and leaves the reference states unchanged.", "quantifier": "all fields, all rotations", "why_tests_cant": "A symmetry over all inputs and all rotations, including the periodic seam.", "anchors": ["src/falwa/f90_modules/compute_qgpv.f90:compute_qgpv", "src/falwa/f90_modules/compute_flux_dirinv.f90:compute_flux_dirinv_nshem", "src/falwa/f90_modules/compute_reference_states.f90:compute_reference_states"]}
{"id": "C48", "title": "Mirroring the atmosphere mirrors the results", "statement": "Replacing the atmosphere by its mirror image about the equator (u and theta mirrored, v mirrored and negated) mirrors absolute vorticity and QGPV with a sign change, and mirrors reference states, LWA and fluxes, for the classes QGFieldNH18 and QGFieldNHN22.", "quantifier": "all fields, all grids", "why_tests_cant": "A symmetry over all inputs; sign slips in the southern call only show up relationally.", "anchors": ["src/falwa/oopinterface.py:QGFieldNH18._compute_reference_states", "src/falwa/oopinterface.py:QGFieldNHN22._compute_reference_states", "src/falwa/f90_modules/compute_qgpv.f90:compute_qgpv", "src/falwa/f90_modules/compute_qgpv_direct_inv.f90:compute_qgpv_direct_inv"]}
{"id": "C49", "title": "The reference QGPV is a monotone, range-respecting rearrangement", "statement": "Before division by the Coriolis parameter, the reference QGPV on each interior level lies between the smallest and the largest QGPV of that level, is non-decreasing toward the pole, and is defined on every row.", "quantifier": "all QGPV fields, all partition numbers >= 2, all grids", "why_tests_cant": "Ordering claims for every field; undefined rows appear only when the counted area is too small.", "anchors": ["src/falwa/f90_modules/compute_reference_states.f90:compute_reference_states", "src/falwa/f90_modules/compute_qref_and_fawa_first.f90:compute_qref_and_fawa_first"]}
{"id": "C50", "title": "The area analysis counts every cell once", "statement": "Every grid cell falls in exactly one partition with an index between 1 and npart, and the cumulative area used to place the reference contours accounts for the whole sphere.", "quantifier": "all fields with qmax > qmin, all npart >= 2", "why_tests_cant": "Index arithmetic with truncation for every real value, and the first partition.", "anchors": ["src/falwa/f90_modules/compute_reference_states.f90:compute_reference_states", "src/falwa/f90_modules/compute_qref_and_fawa_first.f90:compute_qref_and_fawa_first"]}
{"id": "C51", "title": "The reference state depends only on the area distribution of QGPV", "statement": "The reference QGPV is unchanged by any rearrangement of the QGPV on a level that keeps the area of each value.", "quantifier": "all rearrangements, all fields", "why_tests_cant": "All permutations.", "anchors": ["src/falwa/f90_modules/compute_reference_states.f90:compute_reference_states"]}
{"id": "C52", "title": "The reference temperature has the prescribed hemispheric mean", "statement": "On each level the cosine-weighted mean over the analysed rows of the reference potential temperature equals the prescribed mean, for both solvers.", "quantifier": "all winds, stabilities, grids, all levels including top and bottom", "why_tests_cant": "An exact conservation identity for all inputs.", "anchors": ["src/falwa/f90_modules/compute_reference_states.f90:compute_reference_states", "src/falwa/f90_modules/upward_sweep.f90:upward_sweep"]}
{"id": "C53", "title": "The reference temperature is in thermal-wind balance with the reference wind", "statement": "At each interior level and row the centred difference of reference temperature equals the thermal-wind expression in the reference wind of the same solver.", "quantifier": "all winds, grids, interior levels and rows", "why_tests_cant": "A discrete identity on all rows, for all inputs.", "anchors": ["src/falwa/f90_modules/compute_reference_states.f90:compute_reference_states", "src/falwa/f90_modules/upward_sweep.f90:upward_sweep"]}
{"id": "C54", "title": "The direct solver solves the discretised equation", "statement": "If every matrix inversion in the downward sweep is exact, the wind returned by the upward sweep satisfies, at every interior level, the block-tridiagonal system assembled from stability and reference QGPV, together with the no-slip lower and the thermal-wind upper boundary condition.", "quantifier": "all sizes, all coefficients for which the inverses exist", "why_tests_cant": "Correctness of a block elimination for every size is an induction, not a sample.", "anchors": ["src/falwa/f90_modules/matrix_b4_inversion.f90:matrix_b4_inversion", "src/falwa/f90_modules/matrix_after_inversion.f90:matrix_after_inversion", "src/falwa/f90_modules/upward_sweep.f90:upward_sweep", "src/falwa/oopinterface.py:QGFieldNHN22._compute_reference_states_nhn22_hemispheric_wrapper"]}
{"id": "C55", "title": "The iterative solver: fixed points solve the equation, the loop is bounded, failure returns no stale wind", "statement": "A wind field is left unchanged by a full pair of half sweeps exactly if it solves the discretised equation at all interior points; the loop stops after at most maxits sweeps; the reported iteration count is at most maxits exactly if the stopping criterion was met; and if it was not met the wind used afterwards is zero at all points.", "quantifier": "all coefficients with non-zero diagonal, all relaxation factors != 0, all maxits, all initial winds", "why_tests_cant": "Fixed points and termination over all iterates.", "anchors": ["src/falwa/f90_modules/compute_reference_states.f90:compute_reference_states"]}
{"id": "C56", "title": "Southern boundary circulation belongs to the southern hemisphere", "statement": "In QGFieldNHN22 the equatorward boundary circulation used for the southern hemisphere is computed from the southern hemisphere's (mirrored, sign-changed) absolute vorticity.", "quantifier": "all absolute-vorticity fields", "why_tests_cant": "Needs the invariance of the area analysis under rearrangement, for all fields.", "anchors": ["src/falwa/oopinterface.py:QGFieldNHN22._compute_reference_states", "src/falwa/f90_modules/compute_qref_and_fawa_first.f90:compute_qref_and_fawa_first"]}
{"id": "C57", "title": "Southern reference temperature uses the southern mean profile", "statement": "In QGFieldNHN22 the cosine-weighted mean of the southern reference temperature equals the southern hemispheric mean profile.", "quantifier": "all fields whose two hemispheric mean profiles may differ", "why_tests_cant": "The wrong profile gives plausible numbers; the claim is an identity for all inputs.", "anchors": ["src/falwa/oopinterface.py:QGFieldNHN22._compute_reference_states_nhn22_hemispheric_wrapper"]}
{"id": "C58", "title": "All documented results are available on even latitude grids", "statement": "For an even latitude grid without equator, every public step (interpolation, reference states, LWA, fluxes, layerwise fluxes, heating-rate forcing) works and returns arrays with the input number of latitudes, in global and in northern-only mode.", "quantifier": "all even grid sizes, both modes", "why_tests_cant": "Shape logic for all sizes and modes.", "anchors": ["src/falwa/oopinterface.py:QGFieldBase._return_interp_variables", "src/falwa/oopinterface.py:QGFieldBase.compute_ncforce_from_heating_rate", "src/falwa/oopinterface.py:QGFieldBase._compute_layerwise_lwa_fluxes_wrapper"]}
{"id": "C59", "title": "Result shapes match their coordinates", "statement": "Every result property has as many latitudes as ylat_ref_states, and the arrays in the named tuples have the same shapes as the properties of the same name.", "quantifier": "all accepted grids, both modes", "why_tests_cant": "Shape logic for all sizes.", "anchors": ["src/falwa/oopinterface.py:QGFieldBase.ylat_ref_states", "src/falwa/oopinterface.py:QGFieldBase.compute_lwa_and_barotropic_fluxes"]}
{"id": "C60", "title": "Variable lookup is deterministic and honours overrides", "statement": "The name lookup returns the user-supplied name exactly if it is given for the key and present, raises KeyError if it is given and absent, otherwise returns the first default name present, and raises KeyError exactly if none is present.", "quantifier": "all name lists, datasets, override tables", "why_tests_cant": "Decision logic over all inputs.", "anchors": ["src/falwa/xarrayinterface.py:_get_name"]}
{"id": "C61", "title": "Flattening and restoring the extra dimensions preserves every field's coordinates", "statement": "The n-th flattened field is the one at the n-th coordinate combination of iter_other, and the restored output array holds its result at exactly that combination.", "quantifier": "all numbers and sizes of extra dimensions, all fields", "why_tests_cant": "Index arithmetic for all shapes.", "anchors": ["src/falwa/xarrayinterface.py:_MetadataServiceProvider.restore_other", "src/falwa/xarrayinterface.py:_MetadataServiceProvider.iter_other", "src/falwa/xarrayinterface.py:QGDataset.__init__"]}
{"id": "C62", "title": "Automatic flipping keeps values at their coordinates", "statement": "Whatever the orientation of latitude and pressure in the input, each QGField receives ascending latitudes and descending pressures with every value still attached to its own latitude and pressure, and the same is true for heating_rate and ncforce passed later.", "quantifier": "all monotone coordinate arrays in both orientations, all fields", "why_tests_cant": "All orientations and fields; the later inputs take a different path.", "anchors": ["src/falwa/xarrayinterface.py:QGDataset.__init__", "src/falwa/xarrayinterface.py:QGDataset.compute_ncforce_from_heating_rate"]}
{"id": "C63", "title": "Hemispheric static stability is labelled with its own hemisphere", "statement": "QGDataset.static_stability labels the northern profile of each field static_stability_n and the southern one static_stability_s.", "quantifier": "all datasets with hemispheric stability", "why_tests_cant": "The two profiles have equal shapes, so only a semantic statement separates them.", "anchors": ["src/falwa/xarrayinterface.py:QGDataset.static_stability", "src/falwa/oopinterface.py:QGFieldNHN22.static_stability"]}
{"id": "C64", "title": "hemisphere_to_globe builds an exactly mirrored globe", "statement": "From n latitudes on one hemisphere with the equator at one end the result has 2n-1 latitudes in monotone order with a single equator, the original half unchanged, and at each mirrored latitude the same values with meridional wind negated; an input without equator at an end is refused.", "quantifier": "all hemispheric datasets, both hemispheres, both orders", "why_tests_cant": "All sizes and contents.", "anchors": ["src/falwa/xarrayinterface.py:hemisphere_to_globe"]}
{"id": "C65", "title": "The integrated budget closes exactly", "statement": "delta_lwa equals the sum of the three integrated tendencies and the residual; integrals are additive over consecutive intervals sharing their end point, and exact for tendencies that are affine in time.", "quantifier": "all time series, all time axes, all split points", "why_tests_cant": "An identity over all series and splits.", "anchors": ["src/falwa/xarrayinterface.py:integrate_budget"]}
{"id": "C66", "title": "The covariance map is the grid-point sample covariance", "statement": "calculate_covariance returns at each grid point the sample covariance (divisor time-1) of the two series at that point; it is symmetric, bilinear, shift invariant, and the covariance of a series with itself is >= 0.", "quantifier": "all series lengths >= 2, all grids", "why_tests_cant": "Index selection from a large matrix for every size; algebraic laws.", "anchors": ["src/falwa/stat_utils.py:calculate_covariance"]}
{"id": "C67", "title": "Gap filling leaves complete fields untouched", "statement": "gridfill_each_level returns its input unchanged if it contains no NaN, and only then skips the filler.", "quantifier": "all fields", "why_tests_cant": "All fields; the filler is a parameter.", "anchors": ["src/falwa/preprocessing.py:gridfill_each_level"]}
{"id": "C68", "title": "Unknowns of the legacy solver are numbered without collision", "statement": "The map from (latitude index, level index) to the unknown number is injective and covers exactly 0..jmax*kmax-1.", "quantifier": "all sizes", "why_tests_cant": "A bijection for all sizes.", "anchors": ["src/falwa/legacy/beta_version.py:input_jk_output_index"]}
{"id": "C69", "title": "Stored reference QGPV and reported reference QGPV are consistent", "statement": "The reported qref is the stored ratio times 2*Omega*sin(lat): it vanishes at the equator, and away from it the solver's reference QGPV is recovered exactly, in both hemispheres with the southern sign.", "quantifier": "all stored states, latitudes, rotation rates", "why_tests_cant": "Round trip over division and multiplication for all rows and both hemispheres.", "anchors": ["src/falwa/data_storage.py:ReferenceStatesStorage.qref_correct_unit", "src/falwa/f90_modules/compute_reference_states.f90:compute_reference_states"]}
{"id": "C70", "title": "Components of LWA are stored for both hemispheres", "statement": "After compute_lwa_only on a global field the cyclonic and anticyclonic components in the layerwise storage add up to lwa on every row of both hemispheres.", "quantifier": "all fields in global mode", "why_tests_cant": "Assignments to a misnamed attribute succeed silently.", "anchors": ["src/falwa/oopinterface.py:QGFieldBase.compute_lwa_only", "src/falwa/data_storage.py:LayerwiseFluxTermsStorage"]}
{"id": "C71", "title": "theta_lwa assigns no wave activity to wave-free temperature", "statement": "For a zonally symmetric temperature that decreases toward both poles and equals its own derived profile, theta_lwa returns zero local wave activity in both hemispheres.", "quantifier": "all zonally symmetric temperature fields of that shape", "why_tests_cant": "A sign convention that holds in one hemisphere and not in the other; tests compare one array with stored output.", "anchors": ["src/falwa/wrapper.py:theta_lwa", "src/falwa/basis.py:lwa"]}
{"id": "C72", "title": "A result that was never computed is not returned as zeros", "statement": "Reading a result property (interpolated fields, reference states, barotropic results, lwa, layerwise terms) before the step that computes it has run raises ValueError.", "quantifier": "all finite call sequences, all result properties", "why_tests_cant": "Needs every order of calls; tests read results after the documented sequence only.", "anchors": ["src/falwa/oopinterface.py:QGFieldBase", "src/falwa/data_storage.py:ReferenceStatesStorage", "src/falwa/data_storage.py:OutputBarotropicFluxTermsStorage"]}
{"id": "C73", "title": "Flux results never mix the reference state of earlier fields with newer fields", "statement": "Whenever compute_lwa_and_barotropic_fluxes completes, the reference states it used were computed from the interpolated fields it used.", "quantifier": "all finite call sequences in which the input arrays may be replaced between calls", "why_tests_cant": "A staleness property over histories.", "anchors": ["src/falwa/oopinterface.py:QGFieldBase.interpolate_fields", "src/falwa/oopinterface.py:QGFieldBase.compute_reference_states", "src/falwa/oopinterface.py:QGFieldBase.compute_lwa_and_barotropic_fluxes"]}
{"id": "C74", "title": "The pole rows carry no momentum-flux terms", "statement": "The two terms whose difference gives divergence_eddy_momentum_flux are zero on the pole rows, which the flux routine does not analyse (there the difference is divided by the cosine of 90 degrees).", "quantifier": "all fields, reference states, grids and equatorward boundary indices", "why_tests_cant": "An out-of-range subscript lands on a different row and level only for one value of the boundary index.", "anchors": ["src/falwa/f90_modules/compute_flux_dirinv.f90:compute_flux_dirinv_nshem", "src/falwa/oopinterface.py:QGFieldBase.compute_lwa_and_barotropic_fluxes"]}
{"id": "C75", "title": "The eddy momentum-flux divergence is a centred difference", "statement": "On every analysed row, divergence_eddy_momentum_flux is the column average of the centred meridional difference of (u - uref) v cos^2(phi) divided by 2 a dphi cos(phi), in both hemispheres.", "quantifier": "all fields, reference states, grids and boundary indices, all analysed rows", "why_tests_cant": "Row alignment between three arrays with different offsets; regression data cannot tell a wrong offset from a right one.", "anchors": ["src/falwa/f90_modules/compute_flux_dirinv.f90:compute_flux_dirinv_nshem", "src/falwa/oopinterface.py:QGFieldBase.compute_lwa_and_barotropic_fluxes"]}
{"id": "C76", "title": "The reference contour encloses the area of its polar cap", "statement": "Wherever the area analysis assigns a reference QGPV to a row, the area of the cells whose QGPV exceeds it equals the area of the polar cap north of that row up to the area of the first partition above and of the two bracketing partitions below.", "quantifier": "all fields with qmax > qmin, all npart >= 2, all odd grids, all assigned rows", "why_tests_cant": "The defining property of an equivalent latitude, with an error bound that must hold for each field.", "anchors": ["src/falwa/f90_modules/compute_reference_states.f90:compute_reference_states", "src/falwa/f90_modules/compute_qref_and_fawa_first.f90:compute_qref_and_fawa_first"]}
{"id": "C77", "title": "The NH18 reference state does not depend on uninitialised memory", "statement": "The reference wind, reference temperature and iteration count returned by compute_reference_states are functions of its arguments alone; elements of local arrays that are read before they are assigned have no influence.", "quantifier": "all fields with a non-constant QGPV on each level, all grids, all contents of uninitialised memory", "why_tests_cant": "Freshly started processes usually see zeros in such memory, so a test passes by luck.", "anchors": ["src/falwa/f90_modules/compute_reference_states.f90:compute_reference_states"]}
{"id": "C78", "title": "The equatorward row of the NHN22 reference wind is the boundary wind", "statement": "On the equatorward boundary row the returned uref times the cosine of latitude equals the boundary value used in the inversion, at every interior level.", "quantifier": "all fields, grids, boundary indices, interior levels", "why_tests_cant": "The regression values of a row outside the plotted range are rarely inspected; the claim is for every level and input.", "anchors": ["src/falwa/f90_modules/upward_sweep.f90:upward_sweep", "src/falwa/f90_modules/matrix_b4_inversion.f90:matrix_b4_inversion"]}
{"id": "C79", "title": "The direct solver never inverts a singular matrix", "statement": "For positive radius, rotation rate, scale height, gas constant, level spacing and static stability, every matrix handed to the LAPACK inversion in the downward sweep is nonsingular, provided the earlier inversions were correct.", "quantifier": "all odd grids with at least three analysed rows and three levels, all boundary indices, all positive stability profiles, all levels", "why_tests_cant": "Nonsingularity of matrices produced by a recursion over levels, for every size and profile.", "anchors": ["src/falwa/f90_modules/matrix_b4_inversion.f90:matrix_b4_inversion", "src/falwa/f90_modules/matrix_after_inversion.f90:matrix_after_inversion", "src/falwa/oopinterface.py:QGFieldNHN22._compute_reference_states_nhn22_hemispheric_wrapper"]}
{"id": "C80", "title": "The absolute vorticity is the curl of the wind plus the planetary vorticity", "statement": "On every row between the poles the absolute vorticity inside QGPV is 2*Omega*sin(lat) plus the centred zonal derivative of v minus the centred meridional derivative of u*cos(lat), each with the spacing of its own direction, periodic in longitude.", "quantifier": "all winds, all numbers of longitudes and latitudes, all levels, all inner rows", "why_tests_cant": "The spacing of one direction used for the other is invisible on the grids of the tests.", "anchors": ["src/falwa/f90_modules/compute_qgpv.f90:compute_qgpv", "src/falwa/f90_modules/compute_qgpv_direct_inv.f90:compute_qgpv_direct_inv"]}
{"id": "C81", "title": "QGPV is absolute vorticity plus stretching with the Coriolis parameter", "statement": "On every interior level, and for both classes, QGPV is absolute vorticity plus f*exp(z/H)*d/dz(exp(-z/H)*(theta-theta0)/(dtheta0/dz)) in centred differences, with the mean profile and stability the class prescribes and f = 2*Omega*sin(lat).", "quantifier": "all winds and temperatures, all grids, both solvers, all interior levels", "why_tests_cant": "The formula must hold for every field; regression data freeze whatever was coded.", "anchors": ["src/falwa/f90_modules/compute_qgpv.f90:compute_qgpv", "src/falwa/f90_modules/compute_qgpv_direct_inv.f90:compute_qgpv_direct_inv"]}
{"id": "C82", "title": "Circulation of the vorticity field", "statement": "The area-weighted relative vorticity of a band of latitudes is the circulation of the zonal-mean wind around its edges; air at rest has exactly planetary vorticity; solid-body rotation gives its vorticity times the factor sin(2 dphi)/(2 dphi); pole rows carry the zonal mean of the adjacent row.", "quantifier": "all winds, all grids, all bands", "why_tests_cant": "A telescoping identity over arbitrary many rows.", "anchors": ["src/falwa/f90_modules/compute_qgpv.f90:compute_qgpv", "src/falwa/f90_modules/compute_qgpv_direct_inv.f90:compute_qgpv_direct_inv"]}
{"id": "C83", "title": "The advective flux F1 + F2 is the advective transport of wave activity", "statement": "On every analysed row adv_flux_f1 + adv_flux_f2 is the column average of cos(lat) times the integral of |q - Qref| u over the displaced part of the meridian: it does not depend on the reference wind, and it is not negative where the wind is eastward.", "quantifier": "all fields, reference states, grids, boundary indices, analysed rows of both hemispheres", "why_tests_cant": "Cancellation between two separately stored terms for every field.", "anchors": ["src/falwa/f90_modules/compute_flux_dirinv.f90:compute_flux_dirinv_nshem", "src/falwa/oopinterface.py:QGFieldBase.compute_lwa_and_barotropic_fluxes"]}
{"id": "C84", "title": "F3 is the eddy energy difference", "statement": "On every analysed row adv_flux_f3 is the column average of cos(lat)/2 times (v'^2 - u'^2 - R/H exp(-kappa z/H) theta'^2/(dtheta0/dz)) with the stability of the hemisphere, in both hemispheres.", "quantifier": "all fields, reference states, grids, boundary indices, analysed rows of both hemispheres", "why_tests_cant": "Row reversal and hemisphere-dependent profile; checks of a few stored values cannot separate the formula from an equal-looking one.", "anchors": ["src/falwa/f90_modules/compute_flux_dirinv.f90:compute_flux_dirinv_nshem", "src/falwa/oopinterface.py:QGFieldBase.compute_lwa_and_barotropic_fluxes"]}
{"id": "C85", "title": "The meridional heat flux has the same sign convention in both hemispheres", "statement": "On every analysed row meridional_heat_flux is f*cos(lat) over the column mass times the mean of v'*theta'/(dtheta0/dz)*exp(-z/H) on the two lowest levels, with f, v and theta as given.", "quantifier": "all fields, reference states, grids, boundary indices, analysed rows of both hemispheres", "why_tests_cant": "Three sign reversals have to cancel in the south.", "anchors": ["src/falwa/f90_modules/compute_flux_dirinv.f90:compute_flux_dirinv_nshem", "src/falwa/oopinterface.py:QGFieldBase.compute_lwa_and_barotropic_fluxes"]}
{"id": "C86", "title": "ncforce_baro is the growth of wave activity by the given source", "statement": "On every analysed row ncforce_baro is the column average of the sum over displaced cells of the source, counted positive where PV is in surplus and negative where it is in deficit; without displaced PV it is zero.", "quantifier": "all fields, sources, reference states, grids, analysed rows of both hemispheres", "why_tests_cant": "Ties between PV and its reference value do not occur in random test data.", "anchors": ["src/falwa/f90_modules/compute_flux_dirinv.f90:compute_flux_dirinv_nshem", "src/falwa/oopinterface.py:QGFieldBase.compute_lwa_and_barotropic_fluxes"]}
{"id": "C87", "title": "u_baro is the column average of the wind of its own row", "statement": "On every row of the result u_baro is the mass-weighted column average of the interpolated zonal wind on the same latitude, in both hemispheres and in northern-only mode.", "quantifier": "all winds, grids, modes, rows", "why_tests_cant": "Row reversal in the south.", "anchors": ["src/falwa/f90_modules/compute_flux_dirinv.f90:compute_flux_dirinv_nshem", "src/falwa/oopinterface.py:QGFieldBase.compute_lwa_and_barotropic_fluxes"]}
{"id": "C88", "title": "Layerwise terms average to the barotropic terms", "statement": "The column averages of the layerwise terms of compute_layerwise_lwa_fluxes are the results of compute_lwa_and_barotropic_fluxes (F1, F2, F3, wave activity, source, momentum-flux divergence), on every row.", "quantifier": "all fields, reference states, grids, modes, rows", "why_tests_cant": "Two code paths that must agree for every input.", "anchors": ["src/falwa/oopinterface.py:QGFieldBase.compute_layerwise_lwa_fluxes", "src/falwa/oopinterface.py:QGFieldBase.compute_lwa_and_barotropic_fluxes"]}
{"id": "C89", "title": "The stretching term averages to the low-level heat flux", "statement": "As documented, the vertical average of stretch_term is the meridional heat flux at the lower boundary.", "quantifier": "all fields, reference states, grids with at least four levels, analysed rows off the equator", "why_tests_cant": "A telescoping sum whose upper end must vanish for every field.", "anchors": ["src/falwa/oopinterface.py:QGFieldBase.compute_layerwise_lwa_fluxes", "src/falwa/utilities.py:z_derivative_of_prod"]}
{"id": "C90", "title": "The momentum-flux divergence is the divergence of the meridional flux vector", "statement": "On every inner analysed row divergence_eddy_momentum_flux equals minus the centred divergence of flux_vector_phi_baro.", "quantifier": "all fields, reference states, grids, boundary indices, inner analysed rows", "why_tests_cant": "Two vertical averages over different ranges of levels agree unless the top level moves.", "anchors": ["src/falwa/oopinterface.py:QGFieldBase.compute_layerwise_lwa_fluxes", "src/falwa/oopinterface.py:QGFieldBase.compute_lwa_and_barotropic_fluxes"]}
{"id": "C91", "title": "Vertical interpolation is linear, exact at data levels and between them", "statement": "interpolated_u, interpolated_v and interpolated_theta are linear in the input, return the input on analysis levels that are data levels, lie on the line between the two adjacent data levels otherwise, and reproduce columns that are affine in pseudoheight on every level.", "quantifier": "all accepted pressure grids of any size, all columns, all analysis levels", "why_tests_cant": "Holds for every grid and column; tests use one grid.", "anchors": ["src/falwa/oopinterface.py:QGFieldBase._vertical_interpolation", "src/falwa/oopinterface.py:QGFieldBase.interpolate_fields"]}
{"id": "C92", "title": "Interpolated values stay within the range of the column", "statement": "On every analysis level the interpolated value lies between the smallest and the largest value of the input column.", "quantifier": "all accepted pressure grids, all columns, all analysis levels", "why_tests_cant": "Extrapolation happens only for data that do not reach the ground.", "anchors": ["src/falwa/oopinterface.py:QGFieldBase._check_valid_plev", "src/falwa/oopinterface.py:QGFieldBase._vertical_interpolation"]}
{"id": "C93", "title": "Even latitude grids: linear and exact for affine fields", "statement": "On an even grid the way to the analysis grid and back is linear and returns every field that is affine in latitude exactly, constants in particular, on all rows.", "quantifier": "all ascending even grids, all affine fields", "why_tests_cant": "A statement about every grid.", "anchors": ["src/falwa/oopinterface.py:QGFieldBase.__init__", "src/falwa/oopinterface.py:QGFieldBase._return_interp_variables"]}
{"id": "C94", "title": "Reported fields equal the given fields where nothing needs to be interpolated vertically", "statement": "On analysis levels that are data levels, interpolated_u, interpolated_v and interpolated_theta are the given fields, on every accepted latitude grid.", "quantifier": "all accepted latitude grids, all fields", "why_tests_cant": "The test for even grids checks shapes only.", "anchors": ["src/falwa/oopinterface.py:QGFieldBase._return_interp_variables", "src/falwa/oopinterface.py:QGFieldBase._interp_back"]}
{"id": "C95", "title": "theta_field is Poisson's potential temperature", "statement": "theta_field is T*(1000 hPa/p)**(R/cp), whatever the scale height; a dry-adiabatic atmosphere has the same potential temperature on every analysis level.", "quantifier": "all positive pressures, temperatures, gas constants, scale heights", "why_tests_cant": "An identity of real functions for all parameters.", "anchors": ["src/falwa/oopinterface.py:QGFieldBase.__init__"]}
{"id": "C96", "title": "The mean potential temperature is the area mean of its cap", "statement": "The mean profile of each hemisphere is the cosine-weighted mean over the rows of that hemisphere poleward of the equatorward boundary; it lies within the range of the field there and returns constants.", "quantifier": "all fields, grids with equator in the middle, boundary indices", "why_tests_cant": "A weighted mean normalised with the weights of the other hemisphere.", "anchors": ["src/falwa/oopinterface.py:QGFieldBase._compute_static_stability_func"]}
{"id": "C97", "title": "Masked values have no influence", "statement": "Input values under the mask of a masked array do not influence the fields of the object.", "quantifier": "all masked arrays", "why_tests_cant": "Masked data that differ only under the mask are never tested against each other.", "anchors": ["src/falwa/oopinterface.py:QGFieldBase._convert_masked_data"]}
{"id": "C98", "title": "The forcing of a heating rate is the rate of change of QGPV", "statement": "Adding eps times a heating rate to the potential temperature, with wind and mean profiles held fixed, changes QGPV on every interior level by eps times compute_ncforce_from_heating_rate, in both classes.", "quantifier": "all fields, heating rates, step sizes, grids with equator, interior levels", "why_tests_cant": "Relates two independent code paths (Fortran and Python) for all fields.", "anchors": ["src/falwa/oopinterface.py:QGFieldBase.compute_ncforce_from_heating_rate", "src/falwa/f90_modules/compute_qgpv.f90:compute_qgpv", "src/falwa/f90_modules/compute_qgpv_direct_inv.f90:compute_qgpv_direct_inv"]}
{"id": "C99", "title": "The legacy solver's sparse systems are the boundary value problem", "statement": "In solve_uref_both_bc, a vector solves the assembled sparse system if and only if the field it stands for, with zeros at equator and pole, satisfies the balance of mass correction and wave activity at every interior point, the thermal wind condition at the top, and the no-slip or adiabatic condition at the bottom.", "quantifier": "all numbers of latitudes from 8 and levels from 3, all arguments, both lower boundary conditions, all vectors", "why_tests_cant": "The matrix is built by index arithmetic in loops; no test exists for the function, and a wrong row shows up only as a different solution.", "anchors": ["src/falwa/legacy/beta_version.py:solve_uref_both_bc", "src/falwa/legacy/beta_version.py:input_jk_output_index"]}
{"id": "C100", "title": "The legacy systems have exactly one solution", "statement": "For arguments with ascending latitudes that cover the solver grid and a non-negative vertical coefficient, both sparse systems of solve_uref_both_bc have exactly one solution.", "quantifier": "all such arguments with at least 8 latitudes and 3 levels, both lower boundary conditions", "why_tests_cant": "Nonsingularity for all grid sizes and coefficients.", "anchors": ["src/falwa/legacy/beta_version.py:solve_uref_both_bc"]}
{"id": "C101", "title": "The legacy solver leaves a wave-free state alone and superposes", "statement": "Without wave activity, temperature gradient at the top, surface wind (no-slip) or gradient of surface wave activity (adiabatic), the returned reference wind and temperature of the northern hemisphere are the zonal means. On one grid, corrections and reference states are linear in the data.", "quantifier": "all grids, all data, all real coefficients", "why_tests_cant": "Needs uniqueness of the solution of the linear system for all grids.", "anchors": ["src/falwa/legacy/beta_version.py:solve_uref_both_bc"]}
{"id": "C102", "title": "No-slip means no wind at the ground", "statement": "u_Ref_regular_noslip is zero on the lowest level at every latitude of the northern hemisphere.", "quantifier": "all arguments that make sense", "why_tests_cant": "The function has no test; the condition is imposed on another grid than the one of the result.", "anchors": ["src/falwa/legacy/beta_version.py:solve_uref_both_bc"]}
{"id": "C103", "title": "Legacy temperature and wind corrections are in thermal wind balance", "statement": "On the solver grid, the temperature correction of solve_uref_both_bc changes between rows two steps apart by the thermal wind relation with the Coriolis parameter, cosine and shear of the row between them; its area mean is zero on each level.", "quantifier": "all arguments that make sense, all levels of the correction, all pairs of rows", "why_tests_cant": "An off-by-one in a coefficient array leaves results plausible.", "anchors": ["src/falwa/legacy/beta_version.py:solve_uref_both_bc"]}
{"id": "C104", "title": "The bracket average is an average", "statement": "The second result of eqvlat_vgrad is linear in vgrad, and at every latitude it lies between the smallest and the largest value of vgrad; in particular the bracket average of a constant is that constant.", "quantifier": "all fields, areas that fit on the sphere, latitudes, resolutions and vgrad arrays", "why_tests_cant": "Tests call eqvlat_vgrad without vgrad; a range law is about all arrays.", "anchors": ["src/falwa/basis.py:eqvlat_vgrad"]}
{"id": "C105", "title": "FAWA does not see a constant offset", "statement": "Adding a constant to the vorticity passed to eqvlat_fawa does not change the returned finite-amplitude wave activity; a constant field has none.", "quantifier": "all fields and areas that fit on the sphere, all constants, all rows returned", "why_tests_cant": "A relation between two calls, for all fields.", "anchors": ["src/falwa/basis.py:eqvlat_fawa"]}
{"id": "C106", "title": "FAWA scales with amplitude and length and ignores rotations", "statement": "Multiplying the vorticity by t > 0 multiplies FAWA by t; multiplying the radius by s and the areas by s squared multiplies FAWA by s; rotating each circle of latitude by its own amount leaves FAWA unchanged.", "quantifier": "all fields, factors and shifts; rotations for areas that do not depend on longitude", "why_tests_cant": "Relations between calls for all fields and factors.", "anchors": ["src/falwa/basis.py:eqvlat_fawa"]}
{"id": "C107", "title": "Results do not depend on the units of length and time", "statement": "Expressing lengths (radius, scale height, level spacing, heights), winds, rotation rate, gas constant and heat capacity in other units of length and time changes every result of QGFieldNH18 and QGFieldNHN22 exactly as its dimension says: QGPV and reference QGPV as frequencies, reference wind and wave activity as velocities, fluxes as squared velocities, tendency terms as accelerations; potential temperature, reference potential temperature and the number of sweeps do not change. The convergence of the zonal flux is included on pole rows and on rows whose cosine exceeds the tolerance 1e-5.", "quantifier": "all inputs, grids, both classes, all positive unit factors; interpolations that map multiples to multiples (shown for the linear ones used)", "why_tests_cant": "A dimensional error in one term is invisible for one set of constants; tests use Earth constants only.", "anchors": ["src/falwa/oopinterface.py:QGFieldBase.compute_reference_states", "src/falwa/oopinterface.py:QGFieldBase.compute_lwa_and_barotropic_fluxes", "src/falwa/oopinterface.py:QGFieldBase.compute_lwa_only"]}
{"id": "C108", "title": "BarotropicField agrees with barotropic_eqlat_lwa", "statement": "equivalent_latitudes and lwa of a new BarotropicField are the two results of barotropic_eqlat_lwa called with the same field and options, the area of each grid cell on the sphere and dmu = radius*cos(lat)*dphi; with default arguments lwa[j, i] is the sum over displaced rows of |q - Q(j)| radius cos(lat) pi/(nlat-1).", "quantifier": "all fields, grids, radii, partition counts, with or without given area, dphi, n_partitions, partitioned output", "why_tests_cant": "Two code paths must agree for every combination of optional arguments.", "anchors": ["src/falwa/barotropic_field.py:BarotropicField", "src/falwa/wrapper.py:barotropic_eqlat_lwa"]}
{"id": "C109", "title": "Every latitude is analysed by the hemispheric wrappers", "statement": "With the default nlat_s the reference profile of qgpv_eqlat_lwa lies at every latitude between the smallest and the largest value of the field.", "quantifier": "all fields and grids, all numbers of latitudes", "why_tests_cant": "The default leaves out one row exactly if the number of latitudes is odd; tests use one grid.", "anchors": ["src/falwa/wrapper.py:qgpv_eqlat_lwa"]}
{"id": "C110", "title": "Hemispheric wrappers return the displaced integrals of each hemisphere", "statement": "On every row of the southern nlat_s rows and of the northern nlat_s rows but the last of each, the wave activity of qgpv_eqlat_lwa, qgpv_eqlat_lwa_ncforce, qgpv_eqlat_lwa_options (without vgrad), theta_lwa and qgpv_input_qref_to_compute_lwa is the integral of |q - qref(j)| over the displaced rows of the same hemisphere, with the returned (or given) profile; capsigma is the integral of the forcing over these rows, negative on the poleward side. All other rows are zero.", "quantifier": "all fields, forcings, grids and nlat_s with 2 nlat_s <= nlat", "why_tests_cant": "Slices of several arrays must refer to the same rows for every grid size.", "anchors": ["src/falwa/wrapper.py:qgpv_eqlat_lwa", "src/falwa/wrapper.py:qgpv_eqlat_lwa_ncforce", "src/falwa/wrapper.py:qgpv_eqlat_lwa_options", "src/falwa/wrapper.py:theta_lwa", "src/falwa/wrapper.py:qgpv_input_qref_to_compute_lwa"]}
{"id": "C111", "title": "Only differences of potential temperature matter", "statement": "If the potential temperature is raised by the same constant everywhere (the temperature of a level by the constant times the Exner factor), the interpolated potential temperature, its mean profiles and the reference potential temperature on every computed row rise by that constant, and nothing else changes: static stability, QGPV, reference QGPV, reference wind, number of sweeps, wave activity, barotropic wind, all fluxes and tendencies of QGFieldNH18 and QGFieldNHN22.", "quantifier": "all fields, constants, grids with an equator row and boundary rows; interpolations and splines that add a constant when it is added to their data", "why_tests_cant": "Two runs on all fields and all constants must agree exactly through interpolation, inversion and fluxes.", "anchors": ["src/falwa/oopinterface.py:QGFieldNH18", "src/falwa/oopinterface.py:QGFieldNHN22", "src/falwa/f90_modules/compute_reference_states.f90", "src/falwa/f90_modules/compute_flux_dirinv.f90"]}
{"id": "C112", "title": "The NH18 iteration converges to the solution", "statement": "For stable stratification and 0 <= rjac < 1 the wind of the sweeps tends at every grid point to the unique solution of the discretised reference-state problem, from the zero start of the code. With a positive tolerance the stopping criterion is met by all sweeps from some sweep on, exactly if the right-hand side is not zero at all interior points; then there is a number of sweeps N such that every maxits >= N returns the same number of iterations N and the same wind.", "quantifier": "all grids with at least three rows and levels, all fields, all positive static stabilities, all rjac with rjac^2 < 1, all tolerances, all maxits", "why_tests_cant": "Convergence for all inputs and the behaviour for all maxits are statements about infinitely many sweeps.", "anchors": ["src/falwa/f90_modules/compute_reference_states.f90", "src/falwa/oopinterface.py:QGFieldNH18"]}
{"id": "C113", "title": "A converged reference wind satisfies its equation to the tolerance", "statement": "If the number of iterations returned is at most maxits, the absolute residuals of the discretised equation for the wind returned add up, over all interior points, to less than eps times the sum of the absolute right-hand sides.", "quantifier": "all inputs for which the solver reports convergence", "why_tests_cant": "The criterion is evaluated during the sweep; whether it bounds the result for all inputs cannot be seen from examples that behave well.", "anchors": ["src/falwa/f90_modules/compute_reference_states.f90", "src/falwa/oopinterface.py:QGFieldNH18"]}
{"id": "C114", "title": "Wave activity is Lipschitz in the data and subadditive", "statement": "If the field changes by dq and the reference profile by dQ, the local wave activity of basis.lwa, each of its two parts, and lwa and lwa_baro of QGField change by at most the sum over the rows of (|dq| + |dQ|) times the area weight. The wave activity of a weighted mean of fields with the weighted mean of their reference profiles is at most the weighted mean of the wave activities.", "quantifier": "all grids, all fields and profiles, all non-negative area weights, all finite families with non-negative weights", "why_tests_cant": "Both are inequalities between results for all pairs or families of fields.", "anchors": ["src/falwa/basis.py:lwa", "src/falwa/oopinterface.py:QGFieldBase.compute_lwa_and_barotropic_fluxes", "src/falwa/f90_modules/compute_flux_dirinv.f90"]}
{"id": "C115", "title": "The reference profile is the area-sorted field up to one contour interval", "statement": "For each latitude in [-90, 90] whose southern area is less than the area of all cells there is exactly one value v such that the cells below v cover at most the area south of the latitude and the cells up to v more. The profile of eqvlat_fawa differs from v by at most (max - min)/(n_points - 1), and tends to v as n_points grows. Elsewhere it is the maximum.", "quantifier": "all fields, all non-negative cell areas that fit on the sphere, all latitudes, all n_points >= 2", "why_tests_cant": "The exact contour value is not computed by the code; the bound and the limit concern all resolutions.", "anchors": ["src/falwa/basis.py:eqvlat_fawa", "src/falwa/barotropic_field.py:BarotropicField.equivalent_latitudes"]}
{"id": "C116", "title": "The reference profile depends stably on the field", "statement": "If one field exceeds another one nowhere by more than e, its profile exceeds the other one by at most e and the two contour intervals; so profiles of fields that differ by at most e differ by at most that, and the lwa of two BarotropicField objects by at most (2e + both intervals) times the summed area weight. The contour intervals cannot be dropped: an arbitrarily small change of one cell can change the profile by more than half an interval.", "quantifier": "all pairs of fields on one grid, all e, all pairs of resolutions", "why_tests_cant": "A statement about all pairs of fields; the jump occurs for arbitrarily small changes.", "anchors": ["src/falwa/basis.py:eqvlat_fawa", "src/falwa/barotropic_field.py:BarotropicField.lwa"]}
{"id": "C117", "title": "Boundary rows and levels of the reference states", "statement": "The polar row of uref continues the two rows next to it linearly in both classes; for QGFieldNH18 the equatorial row of uref is the zonal mean wind on the equator. On interior levels the stored reference QGPV times the Coriolis parameter is the value of the area analysis on every row but the equator, where the stored value continues the two rows next to it linearly; on the lowest and the highest level it is zero. Horizontal differences of ptref on the lowest and the highest level are those of the neighbouring level.", "quantifier": "all grids with at least three rows and levels, all fields, both hemispheric calls", "why_tests_cant": "Holds for each row, level and field; a wrong row offset or extrapolation shows up only in one row that tests rarely look at.", "anchors": ["src/falwa/f90_modules/compute_reference_states.f90", "src/falwa/f90_modules/upward_sweep.f90", "src/falwa/f90_modules/compute_qref_and_fawa_first.f90"]}
{"id": "C118", "title": "Wave activity survives rounding", "statement": "In floating-point arithmetic basis.lwa never returns a negative value, for non-negative weights and every order in which numpy may add. Both components and their sum are within a small relative error of the exact displaced-contour integral, and with positive weights they are zero exactly where the exact integral is.", "quantifier": "all fields, contours, non-negative weights, orders of summation, and all roundings with a bounded relative error (sign preserving for the first claim)", "why_tests_cant": "Depends on rounding of each operation for all inputs; a test sees one field, one machine and one summation order.", "anchors": ["src/falwa/basis.py"]}
{"id": "C119", "title": "Wave activity converges to the integral as the grid is refined", "statement": "For a field with bounded meridional gradient, the wave activity of basis.lwa, and the one of QGField in both hemispheres, differs from the meridional line integral over the displaced part of the field by at most a constant times the latitude spacing plus a constant times the error of the reference value; under refinement it tends to the integral.", "quantifier": "all Lipschitz fields, all grids, all rows but the last", "why_tests_cant": "A statement about all grids and about a limit; a test can only compare a few resolutions.", "anchors": ["src/falwa/basis.py", "src/falwa/f90_modules/compute_flux_dirinv.f90", "src/falwa/f90_modules/compute_lwa_only_nhn22.f90"]}
{"id": "C120", "title": "Finite differences approximate derivatives to second order", "statement": "For fields sampled from smooth functions, zonal_convergence, meridional_divergence and curl_2d differ from -1/(a cos phi) dF/dlambda, 1/(a cos phi) d(F cos phi)/dphi and 1/(a cos phi)(dv/dlambda - d(u cos phi)/dphi) by at most a constant times the squared spacings, including the columns at the date line. The same holds for the absolute vorticity of both QGField classes between the poles, with the zonal derivative multiplied by the ratio of the spacings, and for the stretching term between the lowest and the highest level.", "quantifier": "all functions with Lipschitz second derivative, all grid sizes, all columns, all rows off the poles", "why_tests_cant": "A statement about all smooth fields and all resolutions with an explicit error bound.", "anchors": ["src/falwa/utilities.py", "src/falwa/f90_modules/compute_qgpv.f90", "src/falwa/f90_modules/compute_qgpv_direct_inv.f90"]}
{"id": "C121", "title": "Symmetric atmospheres have symmetric results", "statement": "If wind, temperature and forcing repeat after some number of longitudes, then QGPV, wave activity and every flux term repeat after the same number; for a zonally symmetric atmosphere the convergence of the zonal flux is zero on every row.", "quantifier": "all atmospheres that repeat after s longitudes, all s, all grids, both classes", "why_tests_cant": "Quantifies over all fields with a symmetry and over all longitudes; a test compares one symmetric field.", "anchors": ["src/falwa/oopinterface.py"]}
{"id": "C122", "title": "Fields of the wrong shape are refused", "statement": "The constructor of QGField raises TypeError if u_field, v_field or t_field has another shape than (nlev, nlat, nlon).", "quantifier": "all shapes of the three fields, all grids that are otherwise accepted", "why_tests_cant": "There are infinitely many wrong shapes, and numpy broadcasting decides about some of them before the check.", "anchors": ["src/falwa/oopinterface.py"]}
{"id": "C123", "title": "Both vertical-grid modes agree on data on the pseudoheight grid", "statement": "For data whose levels are 0, dz, 2 dz, ... the flag data_on_evenly_spaced_pseudoheight_grid changes nothing: the constructor succeeds or fails alike, and gives the same analysis and the same normalisation as the interpolating mode with kmax = nlev and the same dz.", "quantifier": "all fields, level counts and spacings, all latitude grids including refused ones", "why_tests_cant": "Equality of two computations for all inputs; a test compares one data set.", "anchors": ["src/falwa/oopinterface.py"]}
{"id": "C124", "title": "The normalisation of column averages is positive", "statement": "For every accepted call with positive scale height, pressures and dz, and at least two levels, the number by which column integrals are divided is positive.", "quantifier": "all accepted constructor calls", "why_tests_cant": "Quantifies over all pressure grids and both modes.", "anchors": ["src/falwa/oopinterface.py"]}
{"id": "C125", "title": "The mean profile passes through the level means", "statement": "Where a level of the analysis is a level of the data, the hemispheric mean potential temperature used for QGPV and static stability equals the area mean of the data on that level.", "quantifier": "all accepted calls with at least four levels, both hemispheres, all levels, all splines with the smoothing contract of UnivariateSpline", "why_tests_cant": "Depends on the default smoothing of a library routine for all profiles; small test profiles may hide it.", "anchors": ["src/falwa/oopinterface.py"]}
{"id": "C126", "title": "Every variable of a QGDataset carries matching coordinates", "statement": "Each dataset that a QGDataset method returns, and the forcing that compute_ncforce_from_heating_rate returns, has one coordinate value per array entry along every dimension: the further dimensions of the input first, then height, the latitudes of the input or the reported latitudes, and longitude.", "quantifier": "all accepted grids symmetric about an equator, both modes, any further dimensions of any sizes, all registered variables", "why_tests_cant": "Quantifies over all grids, modes and further dimensions; tests call each method on one grid in one mode.", "anchors": ["src/falwa/xarrayinterface.py"]}
{"id": "C127", "title": "The reference state has the least wave activity", "statement": "Among all reference profiles, the computed one gives the least zonal-mean local wave activity in every row: no profile gives less, up to the radius times the range of the field times an error that goes to zero with the number of latitudes and of partitions. In general a profile is optimal in a row exactly if its value has the areas of the equivalent-latitude relation; the same holds for the QG wave activity in each hemisphere.", "quantifier": "all fields, all reference profiles, all rows but the last, all grids and partition counts", "why_tests_cant": "It compares the computed profile with every other profile; tests evaluate one.", "anchors": ["src/falwa/basis.py:lwa", "src/falwa/basis.py:eqvlat_fawa", "src/falwa/barotropic_field.py:BarotropicField", "src/falwa/f90_modules/compute_flux_dirinv.f90:compute_flux_dirinv_nshem"]}
{"id": "C128", "title": "Wave activity is quadratic in the anomaly", "statement": "If a column differs from the reference profile by at most e and the profile rises by at least g per unit of weight, its local wave activity is at most e^2/g + e*dmu. Conversely, if the field rises by at most G per unit of weight, the square of every displaced anomaly in the column is at most 2 G times the wave activity, plus that of the end of the column. So small waves have small wave activity of second order, and small wave activity means small waves.", "quantifier": "all columns, profiles, weights, amplitudes and slopes; basis.lwa and both hemispheres of QGField", "why_tests_cant": "Inequalities over all fields with free constants; tests compare stored numbers.", "anchors": ["src/falwa/basis.py:lwa", "src/falwa/f90_modules/compute_flux_dirinv.f90:compute_flux_dirinv_nshem"]}
{"id": "C129", "title": "FAWA is the zonal mean of the local wave activity", "statement": "The finite-amplitude wave activity that eqvlat_fawa computes from two circulations and the zonal mean of the local wave activity that lwa computes by adding displaced cells are the same quantity: row j of the first differs from the zonal mean of row j+1 of the second by at most the total circulation of the field over the circumference, plus errors that vanish with the latitude spacing and with the area between neighbouring contours.", "quantifier": "all fields, cell areas proportional to row weights, numbers of contours >= 2, inner rows; explicit bound for regular grids with the default areas of BarotropicField", "why_tests_cant": "Connects two algorithms (sorting areas and adding displaced cells) on every field; a test compares stored numbers of one field.", "anchors": ["src/falwa/basis.py:eqvlat_fawa", "src/falwa/basis.py:lwa", "src/falwa/barotropic_field.py:BarotropicField"]}
{"id": "C130", "title": "is_nhem=False agrees with mirroring the fields", "statement": "The exported routines compute_flux_dirinv_nshem and compute_lwa_only_nhn22 give the same southern result whether the fields are passed as they are with is_nhem=False, or mirrored about the equator (PV, meridional wind and forcing with the opposite sign) with is_nhem=True as QGField does.", "quantifier": "all fields, reference states and constants, any number of longitudes, levels and latitudes, any boundary index, every analysed row", "why_tests_cant": "The branch has no caller in the package and no unit test; the two results are close on smooth fields, so a comparison with a tolerance hides the difference.", "anchors": ["src/falwa/f90_modules/compute_flux_dirinv.f90:compute_flux_dirinv_nshem", "src/falwa/f90_modules/compute_lwa_only_nhn22.f90:compute_lwa_only_nhn22", "src/falwa/oopinterface.py:QGFieldBase"]}
{"id": "C131", "title": "FAWA of the QG solvers is the zonal mean of local wave activity, intrusions and a missing partition apart", "statement": "On interior levels, in every row whose reference value the area analysis places, the finite-amplitude wave activity that compute_qref_and_fawa_first returns equals the zonal mean of the lwa array of QGFieldNHN22, plus the mean PV of the other hemisphere above the reference value, minus the circulation of the cells within one contour interval of the maximum (which the code does not count). The remaining error is bounded by one contour interval, one grid row and a dphi^2/20 midpoint error. The reference wind that QGFieldNH18 imposes at the equator is the zonal-mean wind plus this quantity.", "quantifier": "all PV fields that are not constant, any number of longitudes, latitudes and partitions, all interior levels, all placed rows", "why_tests_cant": "A test compares with a stored result of one data set; the relation and its error bound hold for all fields and grids and need a proof.", "anchors": ["src/falwa/f90_modules/compute_qref_and_fawa_first.f90:compute_qref_and_fawa_first", "src/falwa/f90_modules/compute_reference_states.f90:compute_reference_states", "src/falwa/oopinterface.py:QGFieldNHN22._compute_reference_states_nhn22_hemispheric_wrapper", "src/falwa/oopinterface.py:QGFieldBase.lwa"]}
{"id": "C132", "title": "Every element of the returned FAWA is determined by the input", "statement": "Two calls of compute_qref_and_fawa_first with the same arguments return the same array fawa.", "quantifier": "all arguments with a PV field that is not constant on each interior level, every row and level", "why_tests_cant": "Uninitialised memory often holds zeros or the values of the previous call, so repeated runs agree by accident.", "anchors": ["src/falwa/f90_modules/compute_qref_and_fawa_first.f90:compute_qref_and_fawa_first"]}
{"id": "C133", "title": "Wave activity of the QG classes is not negative in single precision", "statement": "Whatever the input, neither part of the wave activity that compute_lwa_only_nhn22 and compute_flux_dirinv_nshem return is negative, so lwa of compute_layerwise_lwa_fluxes and lwa_baro are not negative either.", "quantifier": "all single precision fields, reference states and grids, with and without fused multiply-add", "why_tests_cant": "Needs the rounding of every operation for all inputs; the tests compare with a tolerance that hides values of this size.", "anchors": ["src/falwa/f90_modules/compute_lwa_only_nhn22.f90:compute_lwa_only_nhn22", "src/falwa/f90_modules/compute_flux_dirinv.f90:compute_flux_dirinv_nshem", "src/falwa/oopinterface.py:QGFieldBase.compute_lwa_only", "src/falwa/oopinterface.py:QGFieldBase._compute_layerwise_lwa_fluxes_wrapper"]}
{"id": "C134", "title": "The NHN22 solver accepts every vertical grid that the constructor accepts", "statement": "compute_reference_states of QGFieldNHN22 passes arrays of kmax levels to its solver, for every kmax >= 3 and every spacing dz, be it given by the user or taken from the pressure levels (data_on_evenly_spaced_pseudoheight_grid=True).", "quantifier": "all numbers of levels from 3 to 1000 and all positive spacings in double precision", "why_tests_cant": "Whether the call works depends on the last bit of dz; no finite set of spacings shows that it always does.", "anchors": ["src/falwa/oopinterface.py:QGFieldNHN22._compute_reference_states_nhn22_hemispheric_wrapper", "src/falwa/f90_modules/matrix_b4_inversion.f90:matrix_b4_inversion"]}
{"id": "C135", "title": "Results that were read do not change when further methods are called", "statement": "An array read from a property of a QGField (uref, ptref, lwa_baro, qgpv, convergence_zonal_advective_flux, ...) keeps its values when other methods of the object are called afterwards, in particular when compute_lwa_and_barotropic_fluxes is called again with another forcing.", "quantifier": "for every grid type, option and class, every sequence of calls before the read (also ones that raise half-way), every property, every sequence of calls and reads afterwards, and every numerical content of the methods", "why_tests_cant": "A statement about object identity over all call sequences: a test compares values right after the call, and on grids without equator (the most common test data) everything is copied.", "anchors": ["src/falwa/oopinterface.py:376-402", "src/falwa/oopinterface.py:1221-1512", "src/falwa/oopinterface.py:908-961", "src/falwa/data_storage.py:41-62"]}
{"id": "C136", "title": "Editing a returned array does not change the object", "statement": "Changing an array read from a property in place (for example uref *= 2 or lwa_baro[mask] = 0) changes neither the object nor any result read from it later.", "quantifier": "for every grid type and every session in which arrays read from properties are edited by arbitrary functions at arbitrary times", "why_tests_cant": "Noninterference compares two whole sessions; no finite set of edits settles it.", "anchors": ["src/falwa/oopinterface.py:376-402", "src/falwa/oopinterface.py:1221-1512"]}
{"id": "C137", "title": "The arrays passed by the user are never modified", "statement": "Whatever methods of a QGField are called, in whatever order and even if they raise, the arrays u_field, v_field, t_field, xlon, ylat, plev passed to the constructor keep their values.", "quantifier": "for every grid type, option and class, all call sequences including partial runs, all numerical contents", "why_tests_cant": "Attributes are views of the arrays of the user on some grids; a test would have to compare the arrays after every call sequence.", "anchors": ["src/falwa/oopinterface.py:111-240", "src/falwa/oopinterface.py:509-522", "src/falwa/data_storage.py:41-62"]}
{"id": "C138", "title": "Changing the input arrays after construction has no effect", "statement": "If the arrays passed as u_field, v_field, t_field are reused for something else (for example for the next time step) after the object was constructed, the results of the object are those of the original data.", "quantifier": "for every grid type and every session in which these arrays are edited by arbitrary functions at arbitrary times", "why_tests_cant": "Noninterference between two sessions for all times of the edit; tests do not reuse the arrays.", "anchors": ["src/falwa/oopinterface.py:189-240", "src/falwa/oopinterface.py:270-328", "src/falwa/oopinterface.py:509-522"]}
{"id": "C139", "title": "northern_hemisphere_results_only only restricts the output", "statement": "Two QGField objects from the same arrays on a grid with an equator, one with northern_hemisphere_results_only=True and one without: every array returned by the first (qref, uref, ptref, lwa, the barotropic terms) is the northern part of the array returned by the second, from the equator to the pole.", "quantifier": "all fields, grids with an equator, boundary indices and both QGField classes", "why_tests_cant": "The option changes which slices are stored, overwritten and passed on to the flux routine; a test compares a few fields and would not tell on which rows the agreement holds for all of them.", "anchors": ["src/falwa/oopinterface.py:QGFieldBase", "src/falwa/data_storage.py:DerivedQuantityStorage"]}
{"id": "C140", "title": "In single precision every grid point gets a partition that exists", "statement": "In the area analysis of the Fortran reference state routines, executed in single precision, the index ind = 1 + int((qmax - q)/dq) of every grid point lies in 1..npart, so that an(ind) and cn(ind) are array elements; it differs from the index in exact arithmetic by at most one, the largest value is in partition 1, and larger values are never in a later partition.", "quantifier": "all fields, grid sizes, numbers of partitions up to 2^20 and machines that round each operation with relative error u (single precision with and without fused multiply-add in particular)", "why_tests_cant": "The smallest value of a level lies on the edge of the last partition; whether rounding pushes its quotient above npart - 1 depends on the bits of the field, and a write outside the array need not be visible in the output.", "anchors": ["src/falwa/f90_modules/compute_reference_states.f90:68-97", "src/falwa/f90_modules/compute_qref_and_fawa_first.f90:58-86", "src/falwa/f90_modules/compute_qref_and_fawa_first.f90:109-132"]}
{"id": "C141", "title": "The Fortran routines stay inside their arrays", "statement": "For every latitude/height grid that the QGField constructors accept, each array element read or written by the nine Fortran routines has its subscripts within the declared bounds.", "quantifier": "all grid sizes, positions of the equator, boundary indices, numbers of levels and partitions; every loop iteration of all nine routines", "why_tests_cant": "A write outside a Fortran array is silent without bounds checking and corrupts whatever lies next in memory; tests run with the few sizes for which the loops fit.", "anchors": ["src/falwa/f90_modules/compute_reference_states.f90", "src/falwa/f90_modules/compute_qref_and_fawa_first.f90", "src/falwa/f90_modules/matrix_b4_inversion.f90", "src/falwa/f90_modules/matrix_after_inversion.f90", "src/falwa/f90_modules/upward_sweep.f90", "src/falwa/f90_modules/compute_qgpv.f90", "src/falwa/f90_modules/compute_qgpv_direct_inv.f90", "src/falwa/f90_modules/compute_flux_dirinv.f90", "src/falwa/f90_modules/compute_lwa_only_nhn22.f90", "src/falwa/oopinterface.py:QGFieldBase"]}
{"id": "C142", "title": "Cell and partition areas in single precision are areas", "statement": "In the area analysis of the Fortran reference state routines, executed in single precision, the area of every grid cell is not negative, so partition areas and cumulative areas are not negative and increase with the partition; they agree with the exact areas of the same cells up to rounding.", "quantifier": "all grids, fields, rows and partitions; machines that round each operation with relative error u", "why_tests_cant": "The sign of cos(-pi/2) depends on the last bit of the stored pi; tests compare reference states with a tolerance far above that.", "anchors": ["src/falwa/f90_modules/compute_reference_states.f90:68-97", "src/falwa/f90_modules/compute_qref_and_fawa_first.f90:58-86"]}
{"id": "C143", "title": "Every even latitude grid is accepted in double precision", "statement": "A QGField on an ascending latitude grid with an even number of rows and no equator is accepted for every number of rows, and the equator of the interpolated grid is its middle row, although the constructor looks for a latitude equal to zero in a grid computed in double precision.", "quantifier": "all even numbers of rows, all latitudes", "why_tests_cant": "Whether linspace hits zero exactly depends on the rounding for the given number of rows; tests use a few sizes.", "anchors": ["src/falwa/oopinterface.py:311-343"]}
{"id": "C144", "title": "The reference profile of a nearly zonal state is that state", "statement": "If the field of a BarotropicField on a regular grid with default areas is within e of a zonal state that does not decrease with latitude, the reference profile is within e and one contour interval of the zonal state in every row but the first, so a zonal state is recovered as n_partitions grows. The wave activity is at most 2e plus one interval times the diameter of the planet, and of second order in that error if the zonal state rises.", "quantifier": "all numbers of rows >= 3, longitudes, partitions >= 2, radii, fields, zonal states and e", "why_tests_cant": "It depends on a comparison of the cap area with the rectangle rule in every row of every grid; tests look at one grid.", "anchors": ["src/falwa/barotropic_field.py:74-125", "src/falwa/basis.py:11-64"]}
{"id": "C145", "title": "The reference QGPV of a nearly zonal state is that state", "statement": "If the QGPV of a level is within e of a zonal state that does not decrease from south to north, the reference QGPV (property qref of both QGField classes) is within e and two contour intervals of the zonal state in every row, and the local wave activity is of second order in that error if the zonal state rises.", "quantifier": "all grids with an equator, planets, numbers of partitions, QGPV fields, zonal states and e, both classes, both hemispheres", "why_tests_cant": "It depends on the area analysis of every grid and every number of partitions, and fails where the largest values cover a wide area; tests look at one state.", "anchors": ["src/falwa/f90_modules/compute_reference_states.f90:68-108", "src/falwa/f90_modules/compute_qref_and_fawa_first.f90:58-97", "src/falwa/oopinterface.py:1609-1631"]}
{"id": "C146", "title": "Stronger data give a stronger reference wind", "statement": "If the reference QGPV divided by the Coriolis parameter increases at least as fast towards the pole, the wind on the equatorward boundary is at least as large, and the zonal-mean temperature below the top decreases at least as fast towards the pole, then the reference zonal wind returned by compute_reference_states is nowhere smaller; the change of the wind is bounded by the changes of the three data independently of the latitude spacing.", "quantifier": "all odd grids, planets with positive constants, stable stratifications and pairs of field sets, QGFieldNHN22 (direct solver) and QGFieldNH18 (limit of the iteration)", "why_tests_cant": "It compares the solutions of two linear systems for all data and all resolutions; a test compares two runs on one grid.", "anchors": ["src/falwa/f90_modules/matrix_b4_inversion.f90:28-88", "src/falwa/f90_modules/matrix_after_inversion.f90:15-39", "src/falwa/f90_modules/upward_sweep.f90:25-56", "src/falwa/f90_modules/compute_reference_states.f90:140-230"]}
{"id": "C147", "title": "Residual of the budget figure 3", "statement": "The residual that plot_figure3_and_S1 draws is, in every column and every row it treats, the running mean over 2n+1 columns of the periodic circle of the change of the wave activity between the first and the last slot minus the trapezoidal time integral of convergence of the zonal flux, convergence of the meridional flux and source at the bottom; it vanishes if the flux terms explain every step, and the zonal term drops out of the zonal mean.", "quantifier": "all fields, numbers of columns from 2 on, windows of time slots and smoothing widths", "why_tests_cant": "It is an identity between the drawn array and the budget equation for all inputs; the scripts have no tests.", "anchors": ["scripts/nhn_grl2022/graph_plot_module.py:270-293", "scripts/nhn_grl2022/graph_plot_module.py:350-415", "scripts/nhn_grl2022/graph_plot_module.py:522"]}
{"id": "C148", "title": "Residual of the budget figure 4", "statement": "The residual that plot_figure4 draws is, in every column, the running mean of the tendency of the wave activity by centred differences minus what the flux terms explain.", "quantifier": "all fields, numbers of columns from 2 on, slots and smoothing widths", "why_tests_cant": "It is an identity between the drawn array and the budget equation for all inputs and columns; the scripts have no tests.", "anchors": ["scripts/nhn_grl2022/graph_plot_module.py:648-756"]}
{"id": "C149", "title": "The budget of figure 5 is consistent", "statement": "In plot_figure5 the sum over the window of explained part and residual is the change of the smoothed wave activity; integrating the budget with the diagnosed group velocity and damping rate gives back the smoothed wave activity; the residuals of figure 5 summed over the window are the residual of figure 3 in that row.", "quantifier": "all fields, windows and smoothing widths, with a time step that is not zero", "why_tests_cant": "It relates three numerical integrations for all inputs; a test compares one data set with a tolerance.", "anchors": ["scripts/nhn_grl2022/graph_plot_module.py:824-981"]}
{"id": "C150", "title": "Both damping experiments integrate the same equation", "statement": "In the experiments of plot_figure5 both arrays dlwap and dlwap2 follow the same centred time scheme for the perturbation of the wave activity, on a periodic circle, each with its own change of the damping rate; the zonal sum changes by damping only.", "quantifier": "all fields, numbers of columns from 2 on and numbers of steps", "why_tests_cant": "It is a statement about every step and column of a long integration; a wrong array name in one of six places does not stop the run.", "anchors": ["scripts/nhn_grl2022/graph_plot_module.py:1024-1094"]}
{"id": "C151", "title": "Rates on the finer time mesh", "statement": "The changed damping rate takes away the given part of the positive rate inside the box of times and columns and nothing elsewhere; on the finer mesh every step gets exactly one value, the linear interpolation between the two neighbouring intervals, equal to the rate of the interval at its centre, between the bounds of the rates.", "quantifier": "all rates, mesh refinements and windows", "why_tests_cant": "It concerns every index of two nested loops with bounds checks, for all refinements.", "anchors": ["scripts/nhn_grl2022/graph_plot_module.py:983-1022"]}
{"id": "C152", "title": "Every call of a compiled routine binds its arguments", "statement": "Every call of a compiled routine in the package and in its experimental direct inversion class names only arguments that the routine has, gives every argument it requires, each the value meant for it, and unpacks as many results as it returns; so no such call raises TypeError, whatever the values.", "quantifier": "all calls in oopinterface.py and all values", "why_tests_cant": "The calls are spread over branches (both boundary conditions, both hemispheres, an experimental class); a missing argument is found only by running that branch with the compiled extension.", "anchors": ["src/falwa/oopinterface.py:1906-1927", "src/falwa/f90_modules/compute_flux_dirinv.f90:1-12", "scripts/nhn_grl2022/sample_run_script.py:113-137"]}
{"id": "C153", "title": "The scripts hand over the atmosphere of the file", "statement": "The analysis scripts hand over latitudes ascending and pressures descending together with fields whose value at every latitude and pressure is that of the file, in whichever order the file has its axes.", "quantifier": "all files with strictly monotonic axes", "why_tests_cant": "The scripts have no tests and each was run with one kind of file; a field mirrored about the equator is still a smooth atmosphere and raises no error.", "anchors": ["scripts/lubis_et_al_2025/cal_lwa_budget_NHN22.py:40-49", "scripts/lubis_et_al_2025/cal_lwa_budget_NHN22.py:136-140", "scripts/lubis_et_al_2025/cal_ncforce_loop.py:43-52", "scripts/nhn_grl2022/sample_run_script.py:39-48", "scripts/nhn_grl2022/sample_run_script.py:115-119", "scripts/mdtf_predigest_data/predigest_data.py:85-89"]}
{"id": "C154", "title": "Topography mask of the conversion from hybrid levels", "statement": "In the conversion from hybrid to pressure levels, the topography array is 1 above the ground and NaN below it between the uppermost level and the ground; values that are not NaN interpolate linearly between the neighbouring levels, keep values on the levels and stay within the bounds of the field.", "quantifier": "all columns of hybrid coefficients with pressure ascending downwards, fields and pressures", "why_tests_cant": "It concerns every surface pressure and every pressure level between two model levels; the script has no tests.", "anchors": ["scripts/pre_process_data_in_hybrid_coordinates/vertical_interpolation_hybrid_to_pressure_poisson_filled_below_topo.py:31-94"]}
{"id": "C155", "title": "A QGDataset is a family of independent fields with complete variables", "statement": "After every session on a QGDataset, with or without exceptions, each of its fields is as a single QGField of the same input after some of the same calls, and after all of them if nothing was raised; a variable that can be read from the dataset was computed in all of its fields or in none.", "quantifier": "all numbers of fields, sessions, solver outcomes per field and ncforce arguments", "why_tests_cant": "It quantifies over histories in which calls fail in one of many fields and are caught; tests run one sequence of calls that succeed in every field.", "anchors": ["src/falwa/xarrayinterface.py:241-255", "src/falwa/xarrayinterface.py:399-412", "src/falwa/xarrayinterface.py:438-661"]}
{"id": "C156", "title": "A globe made from one hemisphere has the same wave activity on both hemispheres", "statement": "If the input is the result of hemisphere_to_globe, the local wave activity computed by QGFieldNH18 and QGFieldNHN22 on any latitude equals that on the opposite latitude, at every longitude and level.", "quantifier": "all hemispheric data, both classes, all grids with the equator, longitudes, latitudes and levels", "why_tests_cant": "The claim of the docstring is about all inputs; the test of the function looks at the coordinates and values of the dataset, not at wave activity.", "anchors": ["src/falwa/xarrayinterface.py:738-791", "src/falwa/oopinterface.py:1565-1645", "src/falwa/oopinterface.py:1735-1900"]}
{"id": "C157", "title": "A QGDataset is made of the fields that its arguments stand for", "statement": "Whenever the arguments of QGDataset, arrays or datasets, stand for a zonal wind, a meridional wind and a temperature with the same labels and dimensions ending with height, latitude and longitude, the constructor accepts them and takes exactly these fields, own arguments before variables of the first dataset.", "quantifier": "all combinations of omitted, DataArray and Dataset arguments, contents, name tables, labels and dimensions", "why_tests_cant": "The combinations of argument kinds, names and mismatches are too many for examples; the tests build datasets from three arrays and from one dataset.", "anchors": ["src/falwa/xarrayinterface.py:28-57", "src/falwa/xarrayinterface.py:315-382"]}
{"id": "C158", "title": "The comparison figures have the documented colour scales", "statement": "compare_two_fields and compare_two_fields_on_map draw any two fields of one shape on a common scale that covers both, and their absolute difference on the scale from 0 to the factor times the greatest value of the fields, or on an automatic scale for the factor None.", "quantifier": "all pairs of fields on all grids and all factors, including None", "why_tests_cant": "The tests do not draw figures; the accepted calls and the values left blank depend on signs, ties and the kind of the factor.", "anchors": ["src/falwa/plot_utils.py:13-78", "src/falwa/plot_utils.py:97-164"]}
{"id": "C159", "title": "The analysis of a barotropic field tends to the reference state and wave activity of the sphere", "statement": "For every continuous field on the sphere there is exactly one value whose contour encloses the area south of a latitude. When the field is sampled on finer and finer regular grids with more and more partitions, the equivalent_latitudes of a BarotropicField tend to this value, and its lwa tends to the integral that defines local wave activity.", "quantifier": "all continuous fields on the sphere, all radii, all sequences of regular grids refined in both directions with any unbounded numbers of partitions, all latitudes strictly between the poles and all longitudes (for the wave activity: at which the field has a bounded meridional gradient)", "why_tests_cant": "A test compares numbers on one grid; that the binned areas on discrete cells have a limit, that the limit does not depend on the grids, and that it is the rearrangement of the paper is a statement about all refinements.", "anchors": ["src/falwa/barotropic_field.py:44-164", "src/falwa/basis.py:11-66", "src/falwa/basis.py:137-205"]}
{"id": "C160", "title": "Reference QGPV and wave activity of the QG classes tend to those of the sphere", "statement": "When the QGPV on a level approaches a continuous field on the sphere on finer and finer grids (and, for QGFieldNH18, with more and more partitions), the property qref tends to the value whose contour encloses the area south of the latitude, and lwa tends to the integral between equator and pole that defines local wave activity.", "quantifier": "all continuous fields on the sphere, both classes, both hemispheres, all sequences of refined grids, all latitudes except the poles", "why_tests_cant": "A test compares numbers on one grid; whether the error of the binning goes away under refinement for every field is a statement about all grids and all fields, and it is false for fields with a plateau.", "anchors": ["src/falwa/f90_modules/compute_reference_states.f90:30-108", "src/falwa/f90_modules/compute_qref_and_fawa_first.f90:30-97", "src/falwa/f90_modules/compute_flux_dirinv.f90", "src/falwa/f90_modules/compute_lwa_only_nhn22.f90", "src/falwa/oopinterface.py:1609-1631"]}
{"id": "C161", "title": "The reference wind approximates the solution of the balance equation", "statement": "For every smooth solution u(phi, z) of the elliptic balance equation of the reference state with no wind at the ground, there is a constant such that on every grid between the equatorward boundary and the pole the u_ref of both solvers, times cos(phi), differs from u cos(phi) by at most the error of the boundary circulation plus the constant times dphi^2 + dz + the error of the meridional slope of qref/f + the error of the shear prescribed at the top.", "quantifier": "all smooth solutions, all grid spacings, all interior rows and levels, all errors of the data, both solvers (the limit of the sweeps for the iterative one)", "why_tests_cant": "A test can compare with one analytic solution on some grids; that the constant does not grow under refinement, in spite of the coefficients 1/(sin phi cos phi) that are singular at equator and pole, is a statement about all grids.", "anchors": ["src/falwa/f90_modules/compute_reference_states.f90:127-226", "src/falwa/f90_modules/matrix_b4_inversion.f90", "src/falwa/f90_modules/matrix_after_inversion.f90", "src/falwa/f90_modules/upward_sweep.f90", "src/falwa/oopinterface.py:1609-1631"]}
{"id": "C162", "title": "The reference wind responds to the reference QGPV, not to its slope", "statement": "For two inputs on one grid the difference of u_ref cos(phi) splits at every point into a part of at most the response to the boundary circulation and to the temperature at the top, and a remainder. At any choice of one row per level the sum over the levels of exp(-z/H) times the squared remainder is at most (pi Omega a / 2)^2 times the same sum of the squared difference of qref/f. Neither the slope of qref nor a grid spacing nor the static stability enters.", "quantifier": "all pairs of input fields, all grids, all stable stratifications, all choices of rows, both solvers (for the iterative one the limit of the sweeps, without the highest interior level on the left)", "why_tests_cant": "A test can perturb one input; that grid-scale noise in qref, whose slopes grow without bound under refinement, is not amplified on any grid is a statement about all inputs and all grids.", "anchors": ["src/falwa/f90_modules/compute_reference_states.f90:127-226", "src/falwa/f90_modules/matrix_b4_inversion.f90", "src/falwa/f90_modules/matrix_after_inversion.f90", "src/falwa/f90_modules/upward_sweep.f90", "src/falwa/oopinterface.py:1609-1631"]}
{"id": "C163", "title": "The reference wind tends to the solution of the balance equation when the reference QGPV does", "statement": "For every smooth solution u(phi, z) of the balance equation there is a constant such that on every grid dz times the sum over the levels of exp(-z/H) times the square of the error of u_ref cos(phi), whatever row is looked at on each level, is at most the constant times the square of: error of the boundary circulation + dphi^2 + dz + error of the shear at the top + largest error of qref/f. Convergence of the values of qref is enough; its slopes need not converge.", "quantifier": "all smooth solutions, all grids that cover the domain, all errors of the data, all choices of rows, both solvers (the limit of the sweeps for the iterative one, without its highest interior level)", "why_tests_cant": "The reference QGPV comes from a histogram, so its slopes do not obviously converge; no number of test grids shows that the wind still does.", "anchors": ["src/falwa/f90_modules/compute_reference_states.f90:127-226", "src/falwa/f90_modules/matrix_b4_inversion.f90", "src/falwa/f90_modules/matrix_after_inversion.f90", "src/falwa/f90_modules/upward_sweep.f90", "src/falwa/oopinterface.py:1609-1631"]}
{"id": "C164", "title": "Evenly spaced data that start above 1000 hPa: the reference state is balanced at the heights of the data", "statement": "With data_on_evenly_spaced_pseudoheight_grid=True the reference wind and temperature are in thermal-wind balance at the heights of the object, wherever the lowest level is. Also: QGPV and stored reference fields do not depend on where the levels start, column averages carry the factor p0/1000 hPa.", "quantifier": "all inputs, all heights of the lowest level, all interior rows and levels, both solvers", "why_tests_cant": "A test data set starts at one height; a reference state that is balanced for another gas looks plausible everywhere and only a relation between outputs at all levels shows it.", "anchors": ["src/falwa/oopinterface.py:110-122", "src/falwa/oopinterface.py:270", "src/falwa/oopinterface.py:1574-1586", "src/falwa/oopinterface.py:1747-1762", "src/falwa/oopinterface.py:1845", "src/falwa/f90_modules/compute_reference_states.f90:41", "src/falwa/f90_modules/compute_reference_states.f90:235-242", "src/falwa/f90_modules/upward_sweep.f90:62-69"]}
{"id": "C165", "title": "The circulation of the reference state tends to that of the sphere", "statement": "On ever finer grids the circulation that the area analysis of the direct solver assigns to a latitude tends to the integral of the field over the part of the sphere that is rearranged north of it; the boundary value of the wind converges accordingly.", "quantifier": "all continuous fields that are greatest on a null set only, all refining grids and partitions, all boundary latitudes from the equator to the pole (excluded)", "why_tests_cant": "The circulation is a sum over partitions with a correction; no finite grid shows the limit, and nothing in the code states what the sum approximates.", "anchors": ["src/falwa/f90_modules/compute_qref_and_fawa_first.f90:109-140", "src/falwa/f90_modules/matrix_b4_inversion.f90:53-57", "src/falwa/oopinterface.py:1705-1800"]}
{"id": "C166", "title": "The boundary wind of the direct solver has the circulation of the reference state", "statement": "On the equatorward boundary the direct solver (QGFieldNHN22) prescribes the zonal wind whose Kelvin circulation 2 pi a cos(phi) (u + Omega a cos(phi)) is that of the reference state; in particular it is zero for air at rest.", "quantifier": "all inputs, all interior levels, all boundary latitudes; for air at rest all refining grids", "why_tests_cant": "The value looks like a plausible wind; the error of a few m/s can only be seen from the relation between circulation, rotation and wind on all grids.", "anchors": ["src/falwa/f90_modules/matrix_b4_inversion.f90:53-57", "src/falwa/f90_modules/upward_sweep.f90:43-48", "src/falwa/f90_modules/upward_sweep.f90:50-60", "src/falwa/oopinterface.py:1705-1800"]}
{"id": "C167", "title": "From the fields on the sphere to the reference wind", "statement": "Give the direct solver (QGFieldNHN22) samples of QGPV and vorticity on ever finer grids. Its reference wind tends, in the mean square over height, to the wind that is in balance with the QGPV rearranged on the sphere - up to the errors of the boundary conditions that the code prescribes at the equatorward boundary and at the top.", "quantifier": "all continuous QGPV and vorticity fields that are greatest on a null set only, all smooth solutions of the balance equation with the rearranged QGPV, all refining sequences of grids in latitude, longitude, height and area partitions, all sampling errors that tend to zero, all rows on each level", "why_tests_cant": "Area analysis, division by sin(latitude), elimination and back substitution interact; only their composition in the limit says what the reference state is a reference of.", "anchors": ["src/falwa/f90_modules/compute_qref_and_fawa_first.f90:60-180", "src/falwa/f90_modules/matrix_b4_inversion.f90:36-120", "src/falwa/f90_modules/matrix_after_inversion.f90:20-60", "src/falwa/f90_modules/upward_sweep.f90:20-70", "src/falwa/oopinterface.py:1705-1800"]}
{"id": "C168", "title": "QGPV of the class tends to the QGPV of the flow", "statement": "Give QGFieldNHN22 winds and temperature that are samples of smooth fields on ever finer grids with equal spacings in latitude and longitude. The absolute vorticity tends to 2 Omega sin(latitude) plus the curl of the wind, and qgpv to that plus the stretching term of the flow - uniformly, at the poles as well as between them.", "quantifier": "all winds with two derivatives (the second Lipschitz) whose curl is continuous up to the poles, including flow across the poles; all potential temperatures with a smooth scaled anomaly; all sequences of grids with ever more rows and levels; all mean profiles and stabilities whose error vanishes faster than the level spacing; all rows, all columns, all interior levels", "why_tests_cant": "The quotient by cos(latitude) grows without bound near the poles while the difference quotients lose accuracy there, and the rows of the poles are filled with means of their neighbours; a comparison on one grid cannot tell whether the error goes away.", "anchors": ["src/falwa/f90_modules/compute_qgpv_direct_inv.f90:21-100", "src/falwa/f90_modules/compute_qgpv.f90:59-94", "src/falwa/oopinterface.py:1735-1765"]}
{"id": "C169", "title": "QGPV of QGFieldNH18 tends to the QGPV of the flow", "statement": "Give QGFieldNH18 winds and temperature that are samples of smooth fields on ever finer grids with equal spacings in latitude and longitude. qgpv tends to 2 Omega sin(latitude) plus the curl of the wind plus the stretching term with the Coriolis parameter 2 Omega sin(latitude) as its factor, uniformly on all interior levels.", "quantifier": "all winds with two derivatives whose curl is continuous up to the poles, all potential temperatures with a smooth scaled anomaly, all sequences of grids with ever more rows and levels", "why_tests_cant": "The factor of the stretching term is a zonal mean of the absolute vorticity; for weak winds it is close to the Coriolis parameter, so that a comparison within a tolerance passes, and only the limit of fine grids separates the two.", "anchors": ["src/falwa/f90_modules/compute_qgpv.f90:59-122", "src/falwa/oopinterface.py:1563-1590"]}
{"id": "C170", "title": "Stored reference wind of QGFieldNHN22 for smooth winds and temperature", "statement": "Give QGFieldNHN22 winds and temperature that are samples of smooth fields on ever finer grids with equal spacings. The stored reference wind approaches, in the mean square over height, the wind in balance with the QGPV of the flow rearranged on the sphere, except for two errors that finer grids do not remove: the one of the wind read off the circulation at the southern boundary, and the one of the shear prescribed at the top, which is the thermal wind of the temperature gradient at the latitude minus the latitude of the boundary.", "quantifier": "all winds with two derivatives whose curl is continuous up to the poles; all potential temperatures smooth in height and, at the top, in latitude; all balanced states with a southern boundary between the equator and the pole; all sequences of grids with ever more rows and levels; any row on each level; all error bounds", "why_tests_cant": "The statement joins sampling, vorticity, stretching term, area analysis, block inversion and storage, and has a limit in it; a test sees one grid and has no exact solution to compare with.", "anchors": ["src/falwa/f90_modules/compute_qgpv_direct_inv.f90:21-100", "src/falwa/f90_modules/compute_qref_and_fawa_first.f90:60-176", "src/falwa/f90_modules/upward_sweep.f90:1-80", "src/falwa/oopinterface.py:1738-1900"]}
{"id": "C171", "title": "Wave activity of smooth winds and temperature, per level and column-averaged", "statement": "Give either class winds and temperature that are samples of smooth fields on ever finer grids with equal spacings. At output points that tend to a longitude and a latitude off the poles, in either hemisphere, on levels that tend to a height, qref tends to the value whose contour encloses the area south of the latitude, lwa tends to the meridional integral of the wave activity of the QGPV of the flow about that value, and lwa_baro tends to the mean of this integral over the column, weighted with exp(-z/H).", "quantifier": "all winds with two derivatives whose curl is continuous up to the poles, all potential temperatures with a continuous scaled gradient, all sequences of grids with ever more rows and levels (and partitions, for NH18), all points between the boundary row and the pole, both classes, both hemispheres", "why_tests_cant": "Input and output are joined through four Fortran routines and a limit in all three directions; a test sees one grid, on which none of the stages is exact.", "anchors": ["src/falwa/f90_modules/compute_qgpv.f90:59-122", "src/falwa/f90_modules/compute_qgpv_direct_inv.f90:21-100", "src/falwa/f90_modules/compute_qref_and_fawa_first.f90:60-176", "src/falwa/f90_modules/compute_flux_dirinv.f90", "src/falwa/f90_modules/compute_lwa_only_nhn22.f90", "src/falwa/oopinterface.py:1609-1631"]}
{"id": "C172", "title": "Barotropic wind and zonal advective flux of smooth winds and temperature", "statement": "Give either class winds and temperature that are samples of smooth fields on ever finer grids with equal spacings. At output points that tend to a longitude and a latitude, u_baro tends to the mean of the zonal wind over the column, weighted with exp(-z/H). Off the poles and in either hemisphere, adv_flux_f1 + adv_flux_f2 tends to the column mean of cos(latitude) times the meridional integral of displaced QGPV times zonal wind: the reference wind drops out of the sum, so the limit needs no limit of the solver.", "quantifier": "all winds with two derivatives whose curl is continuous up to the poles and whose zonal component is continuous, all potential temperatures with a continuous scaled gradient, all sequences of grids with ever more rows and levels (and partitions, for NH18), all rows for u_baro and all points between the boundary row and the pole for the flux, both classes, both hemispheres", "why_tests_cant": "u_baro includes the highest level in the sum and leaves it out of the normalisation, so it is off on every grid and only right in the limit; F1 and F2 each depend on the reference wind, which a test on one grid cannot separate from the transport.", "anchors": ["src/falwa/f90_modules/compute_flux_dirinv.f90", "src/falwa/oopinterface.py:405-464"]}
{"id": "C173", "title": "Both zonal advective fluxes of smooth winds and temperature, one by one", "statement": "Give QGFieldNHN22 winds and temperature that are samples of smooth fields on ever finer grids with equal spacings. In the Northern Hemisphere adv_flux_f1 approaches the column mean of the balanced reference wind times the wave activity of the flow, and adv_flux_f2 approaches the transport of displaced QGPV by the wind less that mean. What remains is the mean-square error of the stored reference wind times the root mean square of the wave activity.", "quantifier": "all winds with two derivatives whose curl is continuous up to the poles and whose zonal component is continuous, all potential temperatures with a continuous scaled gradient, all balanced states, all sequences of grids with ever more rows and levels, all points between the boundary and the pole", "why_tests_cant": "F1 and F2 contain the output of the inversion, which converges in the mean square over height only; whether that is enough for the column averages is a statement about all grids at once.", "anchors": ["src/falwa/f90_modules/compute_flux_dirinv.f90", "src/falwa/oopinterface.py:405-464"]}
{"id": "C174", "title": "Reference wind of the Southern Hemisphere for smooth winds and temperature", "statement": "Give QGFieldNHN22 winds and temperature of the whole globe that are samples of smooth fields on ever finer grids. In the Southern Hemisphere the stored reference wind approaches a wind in balance with the rearranged QGPV south of the equator and, at the top, with the thermal wind of the southern temperature gradient. Its value at the boundary comes from the circulation around the northern polar cap, because the southern call receives absolute vorticity reversed in latitude without a change of sign. No refinement of the grid removes that.", "quantifier": "all winds with two derivatives whose curl is continuous up to the poles, all potential temperatures with a continuous scaled gradient, all states that solve the balance equation, all sequences of grids with ever more rows and levels and a right matrix inverse, all rows between the South Pole and the boundary", "why_tests_cant": "A test on one grid cannot tell an error of discretization from one that remains in the limit, and on data that are alike in both hemispheres the wrong circulation is not visible.", "anchors": ["src/falwa/oopinterface.py:1773-1822", "src/falwa/f90_modules/compute_qref_and_fawa_first.f90:60-176", "src/falwa/f90_modules/upward_sweep.f90:1-80"]}
{"id": "C175", "title": "Both zonal advective fluxes of the Southern Hemisphere for smooth winds and temperature", "statement": "For the same input adv_flux_f1 in the Southern Hemisphere approaches the column mean of the balanced reference wind times the wave activity of the flow, and adv_flux_f2 approaches the transport of displaced QGPV by the wind less that mean. What remains is the mean-square error of the stored reference wind times the root mean square of the wave activity.", "quantifier": "all winds with two derivatives whose curl is continuous up to the poles and whose zonal component is continuous, all potential temperatures with a continuous scaled gradient, all balanced states, all sequences of grids with ever more rows and levels, all points between the South Pole and the boundary", "why_tests_cant": "F1 and F2 contain the output of the southern call, which converges in the mean square over height only; rows, signs and the order of latitudes have to fit at every grid at once.", "anchors": ["src/falwa/f90_modules/compute_flux_dirinv.f90", "src/falwa/oopinterface.py:405-464"]}
{"id": "C176", "title": "In single precision the reference QGPV stays in the range of the level", "statement": "A row of qref that the area analysis of the Fortran reference state routines assigns, executed in single precision, lies between the smallest and the largest value of the level, up to a relative error of 2^-19 of the largest absolute value. A row is assigned if and only if one of the computed cumulative areas exceeds the area of its polar cap.", "quantifier": "all fields that are not constant, all grids and numbers of partitions, all stored values of alat, whichever product of the interpolation is fused; machines with monotonic rounding of relative error u", "why_tests_cant": "Interpolation with weights 1-dd and dd can overshoot by a rounding error, and computed cumulative areas need not increase; tests compare with the range of one field only.", "anchors": ["src/falwa/f90_modules/compute_reference_states.f90:80-108", "src/falwa/f90_modules/compute_qref_and_fawa_first.f90:58-98"]}
{"id": "C177", "title": "Non-conservative contribution of smooth forcing", "statement": "Give either class winds and temperature that are samples of smooth fields on ever finer grids with equal spacings, and pass compute_lwa_and_barotropic_fluxes a forcing whose error against a continuous field tends to zero. At output points that tend to a longitude and a latitude off the poles, ncforce_baro tends to the mean over the column, weighted with exp(-z/H), of the integral of the forcing over the displaced air: with weight a cos(latitude), plus where air of higher QGPV than the reference value lies south of the latitude, minus where air of lower QGPV lies north of it. Air exactly at the reference value, which the code counts, drops out if the meridian meets each contour in a null set.", "quantifier": "all winds with two derivatives whose curl is continuous up to the poles, all potential temperatures with a continuous scaled gradient, all continuous forcings, all sequences of grids with ever more rows and levels (and partitions, for NH18), all points between the boundary row and the pole whose meridian meets the contours in null sets, both classes, both hemispheres", "why_tests_cant": "The domain of integration is decided by comparisons of computed QGPV and reference QGPV which a small error flips, so a test on one grid cannot tell a convergent sum from one that counts the wrong side of the contour.", "anchors": ["src/falwa/f90_modules/compute_flux_dirinv.f90", "src/falwa/oopinterface.py:429-465", "src/falwa/oopinterface.py:716-795"]}
{"id": "C178", "title": "Forcing and non-conservative contribution of a smooth heating rate", "statement": "Let the heating rate be sampled from a smooth field, with an error that is small against the level spacing. On ever finer grids compute_ncforce_from_heating_rate tends to f exp(z/H) d/dz(exp(-z/H) heating / stability), uniformly on all rows and columns and all levels but the lowest and the highest, with the stability of the hemisphere (NHN22) or of the globe (NH18). If this forcing is passed to compute_lwa_and_barotropic_fluxes, ncforce_baro tends to the column mean of that tendency integrated over the displaced air of the QGPV of the flow.", "quantifier": "all winds and temperatures of C177, all heating rates with two derivatives in height of exp(-z/H) heating / stability and a continuous first one, all sequences of grids with ever more rows and levels (and partitions, for NH18), all points between the boundary row and the pole whose meridian meets the contours in null sets, both classes, both hemispheres", "why_tests_cant": "The derivative in height amplifies errors of the heating rate and of the mean stability by 1/dz, and the row of the equator uses the mean of both stabilities; tests see one grid.", "anchors": ["src/falwa/oopinterface.py:985-1019", "src/falwa/utilities.py:z_derivative_of_prod", "src/falwa/f90_modules/compute_flux_dirinv.f90"]}
{"id": "C179", "title": "Reference QGPV is conserved by conservative dynamics", "statement": "Suppose that on every height the wind has no divergence on the sphere and QGPV is carried with it without sources. If the atmosphere is analysed at two times, each on ever finer grids, the reference QGPV of a latitude and a height tends to the same value at both times, although the QGPV itself has changed. On the sphere: the value whose contour encloses a given area is the same at all times.", "quantifier": "all flows with two bounded derivatives whose QGPV has continuous first derivatives in time, latitude and longitude and obeys the conservation law, all pairs of times, all sequences of grids as in C171, all heights and latitudes between the boundary row and the pole, both classes, both hemispheres", "why_tests_cant": "That the diagnosed reference state is a constant of the motion is a statement about all solutions of the equations of motion and about limits; tests compare a few stored numbers at one time.", "anchors": ["src/falwa/oopinterface.py:_compute_qref_fawa_and_bc", "src/falwa/f90_modules/compute_qref_and_fawa_first.f90", "src/falwa/oopinterface.py:QGFieldNH18"]}
{"id": "C180", "title": "Budget of local wave activity", "statement": "Suppose that on a level the wind has no divergence on the sphere and QGPV changes following the wind only by a source. Then for a reference value that may depend on time, the wave activity between two longitudes changes by the zonal transport of displaced QGPV into the sector (whose column mean is the limit of the sum of the advective fluxes F1 and F2, C172), less the flux v (q - Q) cos(phi) through the circle of latitude and the displaced air that leaves through the ends of the hemisphere, plus the source less the rate of change of the reference value, summed over the displaced air (the limit of ncforce_baro, C177).", "quantifier": "all motions with continuous first derivatives, all differentiable reference values, all intervals of time and of longitude, all latitudes, both hemispheres", "why_tests_cant": "It is an identity between integrals over all solutions, including contours that fold and merge, where the wave activity is not differentiable in time; tests cannot integrate.", "anchors": ["src/falwa/f90_modules/compute_flux_dirinv.f90", "src/falwa/barotropic_field.py", "src/falwa/oopinterface.py:compute_lwa_and_barotropic_fluxes"]}
{"id": "C181", "title": "Budget of the column mean of wave activity that the package returns", "statement": "Suppose that on every height the wind has no divergence on the sphere and QGPV changes following the wind only by a source, and that at every time the atmosphere is analysed on ever finer grids with the source given as the non-conservative forcing. Then lwa_baro, the sum of the advective fluxes F1 and F2, and ncforce_baro tend to column means A, F and N that obey a budget: between two times and two longitudes A changes by the convergence of F divided by a cos(phi), less the column mean of the meridional flux of QGPV anomalies, plus N less the part that belongs to the change of the reference state.", "quantifier": "all motions with continuous first derivatives that depend continuously on height, all differentiable reference values, all intervals of time and of longitude, all sequences of grids as in C171, all latitudes between the boundary row and the pole, both classes, both hemispheres; the limit of ncforce_baro where the meridian meets the contours in null sets", "why_tests_cant": "Users close the wave activity budget with these outputs; that the factors cos(phi), a and the density weights fit together is a statement about limits and about all solutions of the equations of motion, which no stored sample shows.", "anchors": ["src/falwa/oopinterface.py:compute_lwa_and_barotropic_fluxes", "src/falwa/f90_modules/compute_flux_dirinv.f90", "src/falwa/oopinterface.py:_compute_lwa_flux_dirinv"]}
{"id": "C182", "title": "Limits of the eddy fluxes that depend on the reference state", "statement": "Winds and temperature are sampled from smooth fields on ever finer grids, and the reference wind and reference potential temperature given to the flux step tend to smooth fields Uref and Tref. Then adv_flux_f3 tends to the column mean of (v^2 - (u - Uref)^2 - R/H exp(-kappa z/H) (theta - Tref)^2 / stability) / 2 cos(phi), meridional_heat_flux to f cos(phi) v (theta - Tref) / stability at the ground divided by the mass of the column, and divergence_eddy_momentum_flux to the column mean of the derivative in latitude of (u - Uref) v cos(phi)^2 divided by a cos(phi).", "quantifier": "all continuous winds and temperatures, all sequences of grids with equal spacings, all reference states whose error is small compared with the spacing of the rows, all mean profiles of potential temperature with continuous non-vanishing derivative known up to an error small compared with the spacing of the levels, all latitudes off the poles, both classes, both hemispheres; for the divergence rows with two analysed neighbours", "why_tests_cant": "The average over the two lowest levels, the forward and centred differences of the mean temperature and the centred difference across rows are right only in the limit; a stored sample has one grid.", "anchors": ["src/falwa/f90_modules/compute_flux_dirinv.f90", "src/falwa/oopinterface.py:_compute_lwa_flux_dirinv", "src/falwa/oopinterface.py:compute_lwa_and_barotropic_fluxes"]}
{"id": "C183", "title": "The eddy fluxes add up to the flux of QGPV across a latitude", "statement": "If QGPV less its reference value is the QGPV of the winds and temperatures less the reference ones, the wind has no divergence and is in thermal wind balance, then between any two longitudes the column mean of the northward flux of QGPV anomalies across a latitude is: the difference of the limit of adv_flux_f3 at the two ends divided by a cos(phi), minus the limit of divergence_eddy_momentum_flux, minus the limit of meridional_heat_flux, plus the corresponding heat flux through the top.", "quantifier": "all motions and eddies with continuous derivatives, all times, all intervals of longitude, all latitudes between the poles, all radii, rotation rates, scale heights, gas constants and depths", "why_tests_cant": "This is the identity that gives the three returned terms their signs and factors. It is a statement about all smooth flows.", "anchors": ["src/falwa/f90_modules/compute_flux_dirinv.f90", "src/falwa/oopinterface.py:compute_lwa_and_barotropic_fluxes"]}
{"id": "C184", "title": "Complete budget of wave activity from the returned terms", "statement": "Air whose QGPV changes only by its source and which is in thermal wind balance is analysed at all times on ever finer grids, with a reference wind and temperature that tend to ones whose QGPV is the reference QGPV. The limits of lwa_baro, flux_vector_lambda_baro, divergence_eddy_momentum_flux, meridional_heat_flux and ncforce_baro obey one budget: between two times and two longitudes lwa_baro changes by the convergence of the zonal flux divided by a cos(phi), plus the divergence of the eddy momentum flux, plus the low-level heat flux, plus the contribution of sources less that of the change of the reference state, less the heat flux through the top and less what displaced air carries through the ends of the hemisphere.", "quantifier": "all motions, eddies and differentiable reference values as in C181 and C183, all intervals of time and longitude, all sequences of grids as in C171 and C182, all latitudes between the boundary row and the pole, both hemispheres", "why_tests_cant": "Users add these outputs and take the residual for the non-conservative term. That they close in the limit, and which two terms are left out, holds for all flows or not at all.", "anchors": ["src/falwa/oopinterface.py:compute_lwa_and_barotropic_fluxes", "src/falwa/f90_modules/compute_flux_dirinv.f90", "src/falwa/oopinterface.py:_compute_lwa_flux_dirinv"]}
{"id": "C185", "title": "Budget formed from sums of the output over a band of longitudes", "statement": "Under the conditions of the complete budget (C184), multiply lwa_baro, convergence_zonal_advective_flux, divergence_eddy_momentum_flux, meridional_heat_flux and ncforce_baro by the spacing of longitudes and add them up over the columns between two longitudes. As the grids are refined the sums tend to the terms of the budget; in particular the summed convergence tends to the total zonal flux at the western end less that at the eastern end, divided by a cos(phi), although the convergence itself is a difference of values that are known only up to an error.", "quantifier": "all motions, reference states and sequences of grids as in C184, all pairs of longitudes between 0 and 360 degrees, all times, all latitudes between the boundary row and the pole with cos(phi) > 1e-5, both classes, both hemispheres; ncforce_baro where every meridian meets the contours in null sets", "why_tests_cant": "Users average these fields over a sector and expect the sum to close; a statement about limits over all sequences of grids and about differenced fields cannot be seen from a sample.", "anchors": ["src/falwa/oopinterface.py:convergence_zonal_advective_flux", "src/falwa/utilities.py:zonal_convergence", "src/falwa/oopinterface.py:compute_lwa_and_barotropic_fluxes"]}
{"id": "C186", "title": "Budget of the zonal mean of wave activity", "statement": "Under the same conditions, with fields that return to themselves after 360 degrees, the sums over all columns of lwa_baro, divergence_eddy_momentum_flux, meridional_heat_flux and ncforce_baro tend to terms that obey a budget of their own; convergence_zonal_advective_flux adds up to zero on every grid, so neither advection along the circle nor the eddy energy changes the zonal mean.", "quantifier": "all periodic motions, reference states and sequences of grids as in C184, all times, all latitudes between the boundary row and the pole, both classes, both hemispheres; ncforce_baro where every meridian meets the contours in null sets", "why_tests_cant": "The zonal mean budget is the generalised Eliassen-Palm relation that users test; it is a statement about limits for all solutions.", "anchors": ["src/falwa/oopinterface.py:compute_lwa_and_barotropic_fluxes", "src/falwa/utilities.py:zonal_convergence", "src/falwa/f90_modules/compute_flux_dirinv.f90"]}
{"id": "C187", "title": "A missing value makes wave activity NaN in its column and nowhere else", "statement": "The wave activity that basis.lwa returns, and each of its components, is NaN at a row other than the last exactly if the reference value of that row, a value of the field in the same column, or a weight is NaN. Everywhere else it is the number that is computed from the known values, whatever is missing in other columns. The last row is 0 in any case.", "quantifier": "all fields, reference values and weights with any set of NaNs, all grid sizes", "why_tests_cant": "Fields with missing data are common, there is no end of patterns of gaps, and tests use complete fields; a silently wrong number would not be noticed.", "anchors": ["src/falwa/basis.py:lwa"]}
{"id": "C188", "title": "The non-conservative term is NaN where wave activity is NaN", "statement": "Where basis.lwa returns NaN wave activity because of a missing value, the second result (the integral of the forcing) is NaN too.", "quantifier": "all fields, forcings, reference values and weights with any set of NaNs, all grid sizes", "why_tests_cant": "A number in place of NaN looks plausible; tests use complete fields.", "anchors": ["src/falwa/basis.py:lwa"]}
{"id": "C189", "title": "A missing value makes the whole reference profile NaN", "statement": "If any value of the field is NaN, all reference values that basis.eqvlat_fawa and BarotropicField.equivalent_latitudes return are NaN, and BarotropicField.lwa is NaN in all rows but the last. Without missing values the results are the ordinary ones.", "quantifier": "all fields with any set of NaNs, all grids, areas, numbers of bins and latitudes", "why_tests_cant": "The path of NaN through amin, linspace, digitize, cumsum and interp depends on corner cases of each; tests use complete fields.", "anchors": ["src/falwa/basis.py:eqvlat_fawa", "src/falwa/barotropic_field.py:BarotropicField"]}
{"id": "C190", "title": "A missing value makes FAWA NaN", "statement": "If any value of the field is NaN, the finite-amplitude wave activity that basis.eqvlat_fawa returns is NaN at all latitudes, as the reference profile is.", "quantifier": "all fields with any set of NaNs, all grids, areas, numbers of bins and latitudes", "why_tests_cant": "Tests use complete fields, and a number in place of NaN looks plausible.", "anchors": ["src/falwa/basis.py:eqvlat_fawa"]}
{"id": "C191", "title": "A missing value of QGPV shows in the wave activity of the QG classes", "statement": "If a value of QGPV is NaN in a column, the wave activity of compute_lwa_only and compute_lwa_and_barotropic_fluxes in that column and level is NaN, given reference states that are numbers.", "quantifier": "all QGPV fields with any set of NaNs, all reference QGPV, all grids", "why_tests_cant": "Tests use complete fields; a comparison with NaN is false in Fortran, and whether that hides the gap can only be seen from all the branches.", "anchors": ["src/falwa/f90_modules/compute_lwa_only_nhn22.f90", "src/falwa/f90_modules/compute_flux_dirinv.f90"]}
{"id": "C192", "title": "Zonal wind plus wave activity is the wind of the reference state", "statement": "Give BarotropicField the absolute vorticity of a wind on the rotating sphere, on ever finer regular grids with ever more partitions. Where rows tend to a latitude, the zonal mean of the zonal wind plus the zonal mean of lwa divided by the cosine of latitude tends to the zonal wind whose circulation around the polar cap is that of the same vorticity arranged in order of its values from pole to pole. That wind is never less than the zonal mean of the wind itself.", "quantifier": "all winds with continuous derivatives, periodic in longitude, whose absolute vorticity has bounded gradients along meridians; all latitudes between the poles, all sequences of regular grids and partitions", "why_tests_cant": "It is the identity that gives local wave activity its meaning, but holds in the limit of fine grids only; a test compares one field on one grid within a tolerance.", "anchors": ["src/falwa/barotropic_field.py:BarotropicField.lwa", "src/falwa/basis.py:lwa", "src/falwa/basis.py:eqvlat_fawa"]}
{"id": "C193", "title": "Without sources, zonal wind plus wave activity does not change in time", "statement": "Let absolute vorticity be carried by its own wind on the rotating sphere, without sources. Sampled at two times, each time on ever finer regular grids, the zonal mean of the zonal wind plus the zonal mean of BarotropicField.lwa over the cosine of latitude has the same limit at the same latitude: what the mean wind loses wave activity gains.", "quantifier": "all smooth motions without divergence and sources, any two times, all latitudes between the poles, all sequences of regular grids and partitions, which may differ between the times", "why_tests_cant": "The non-acceleration theorem concerns the exact motion of the air; no test can follow it for all winds.", "anchors": ["src/falwa/barotropic_field.py:BarotropicField.lwa", "src/falwa/basis.py:lwa", "src/falwa/basis.py:eqvlat_fawa"]}
{"id": "C194", "title": "Budget of the wave activity of BarotropicField", "statement": "Vorticity is carried by a wind without divergence on the sphere, with a source. Sampled at two times on ever finer regular grids, the sums of BarotropicField.lwa over the columns between two longitudes have limits whose difference is the zonal transport of displaced vorticity through the western less the eastern end, less the flux V (q - Q) cos(latitude) through the circle of latitude, plus the source less the change of the reference value over the displaced air. Over the whole circle and without sources the zonal mean of lwa loses exactly the zonal mean of the meridional flux of vorticity.", "quantifier": "all smooth motions without divergence, any two times in order, all latitudes between the poles, all bands of longitudes, all sequences of regular grids and partitions", "why_tests_cant": "It concerns the exact motion of the air and the limit of fine grids, for all winds; a test compares one motion on one grid within a tolerance.", "anchors": ["src/falwa/barotropic_field.py:BarotropicField.lwa", "src/falwa/basis.py:lwa", "src/falwa/basis.py:eqvlat_fawa"]}
{"id": "C195", "title": "Hemispheric wrappers tend to the hemispheres of the sphere", "statement": "A continuous field and a continuous source are sampled on ever finer regular grids. qgpv_eqlat_lwa and qgpv_eqlat_lwa_ncforce succeed on every grid, and at rows and columns that tend to a point the results tend to: the value whose contour encloses, within the hemisphere, the area equatorward or poleward of the latitude; the finite-amplitude wave activity of that hemisphere alone along the meridian; and, where the meridian meets the contour in a null set, the integral of the source over the displaced air. With the default nlat_s the two parts meet at the equator for even and odd numbers of latitudes; with another nlat_s they end at its latitude.", "quantifier": "all continuous fields and sources, all latitudes strictly inside a hemisphere, all longitudes, all sequences of regular grids, nlat_s and n_points", "why_tests_cant": "It concerns the limit of fine grids for all fields; a test compares one field on one grid within a tolerance.", "anchors": ["src/falwa/wrapper.py:qgpv_eqlat_lwa", "src/falwa/wrapper.py:qgpv_eqlat_lwa_ncforce", "src/falwa/basis.py:lwa", "src/falwa/basis.py:eqvlat_fawa"]}
{"id": "C196", "title": "Budget of the wave activity of the hemispheric wrappers", "statement": "QGPV is carried by a wind without divergence on the sphere, with a source. Sampled at two times on ever finer regular grids, the sums of the lwa of qgpv_eqlat_lwa over the columns between two longitudes have limits whose difference is the zonal transport of displaced QGPV through the ends, less the flux V (q - Q) cos(latitude) through the circle of latitude, plus the source less the change of the reference value over the displaced air, plus one term at the edge of the hemisphere: what air beyond the reference value carries through the edge. This last term is absent from the budget of an analysis from pole to pole.", "quantifier": "all smooth motions without divergence with a smooth reference value, any two times in order, all latitudes inside a hemisphere, all bands of longitudes, all sequences of regular grids, nlat_s and n_points", "why_tests_cant": "It concerns the exact motion of the air and the limit of fine grids, for all winds; a test compares one motion on one grid within a tolerance.", "anchors": ["src/falwa/wrapper.py:qgpv_eqlat_lwa", "src/falwa/basis.py:lwa", "src/falwa/basis.py:eqvlat_fawa"]}
{"id": "C197", "title": "The hemispheric wrappers against the analysis from pole to pole", "statement": "The same field on the same ever finer regular grids is given to qgpv_eqlat_lwa and to BarotropicField. In the Northern Hemisphere the reference value of qgpv_eqlat_lwa is in the limit at most that of BarotropicField, in the Southern Hemisphere at least that. They are equal, and then so is lwa at every longitude, when no value beyond the edge of the hemisphere passes the reference value; otherwise they differ if the contour of the reference value covers no area. For a field that falls from the South Pole to the North Pole they differ at every latitude. The zonal mean of lwa of the wrapper never exceeds that of BarotropicField.", "quantifier": "all continuous fields with bounded meridional gradient, all latitudes inside a hemisphere, all sequences of regular grids with ever more rows and columns, all nlat_s and n_points of both", "why_tests_cant": "It compares two interfaces for all fields in the limit of fine grids; a test compares them for one field on one grid, where they differ by discretisation anyway.", "anchors": ["src/falwa/wrapper.py:qgpv_eqlat_lwa", "src/falwa/barotropic_field.py:BarotropicField", "src/falwa/basis.py:lwa", "src/falwa/basis.py:eqvlat_fawa"]}
{"id": "C198", "title": "Limits of theta_lwa", "statement": "A surface potential temperature is sampled on ever finer regular grids and given to theta_lwa. In each hemisphere qref tends to the temperature whose contour encloses, around the pole, the area poleward of the latitude, and lwa tends to the surface wave activity: the anomalies of warm air displaced toward the pole and of cold air displaced toward the equator.", "quantifier": "all continuous temperatures, all latitudes inside a hemisphere, all longitudes, all sequences of regular grids with ever more rows and columns, all nlat_s and n_points", "why_tests_cant": "The claim is about the limit of fine grids for every temperature; a test sees one grid and cannot tell a discretisation error from an error that stays.", "anchors": ["src/falwa/wrapper.py:theta_lwa", "src/falwa/basis.py:lwa", "src/falwa/basis.py:eqvlat_fawa"]}
{"id": "C199", "title": "Wave activity about a prescribed profile on ever finer grids", "statement": "A field and a prescribed profile are sampled on ever finer regular grids. qgpv_input_qref_to_compute_lwa tends to the wave activity of the hemisphere along the meridian about the prescribed value at the latitude, barotropic_input_qref_to_compute_lwa to that of the whole meridian (first component of the tuple it returns). The limit is zero exactly if no air south of the latitude exceeds the prescribed value and no air north of it is below. With the profile that qgpv_eqlat_lwa derives, the two wrappers have the same limits.", "quantifier": "all continuous fields, all profiles continuous at the latitude, all latitudes inside a hemisphere (or between the poles), all sequences of regular grids, all nlat_s", "why_tests_cant": "It is about the limit of fine grids and about exactly when it vanishes, for all fields and profiles; tests compare one array with stored output.", "anchors": ["src/falwa/wrapper.py:qgpv_input_qref_to_compute_lwa", "src/falwa/wrapper.py:barotropic_input_qref_to_compute_lwa", "src/falwa/basis.py:lwa"]}
{"id": "C200", "title": "integrate_budget on ever finer grids and time axes", "statement": "A QG motion is sampled at times and on grids, analysed, and the output given to integrate_budget. The five terms, summed over the columns of a band of longitudes, tend to the terms of the budget of the motion: the change of wave activity, the time integrals of the convergence of the total advective flux, of the divergence of the eddy momentum flux and of the flux up through the ground; the residual tends to the source of QGPV less the change of the reference values, less what leaves through the top and what displaced air carries through the ends of the region.", "quantifier": "all motions that obey the equations, all latitudes inside a hemisphere with cosine above 1e-5, all bands of longitudes, all periods, all tolerances; all time axes (even or uneven) with steps below a bound that depends only on motion, band, period and tolerance; all sequences of ever finer grids", "why_tests_cant": "It is about limits in space and time for every motion; a test sees one grid and one time axis, and the residual of real data has no known value.", "anchors": ["src/falwa/xarrayinterface.py:integrate_budget", "src/falwa/oopinterface.py:QGFieldBase.compute_lwa_and_barotropic_fluxes"]}
{"id": "C201", "title": "Times of any resolution in integrate_budget", "statement": "The five terms of integrate_budget depend only on the instants that the time stamps denote, not on the resolution in which they are stored, and the attribute integration_seconds is the time between the first and the last of them in seconds.", "quantifier": "all resolutions of datetime64 (s, ms, us, ns), all numbers of time stamps, all time stamps, all fields", "why_tests_cant": "Tests use one resolution; the statement covers all of them and says exactly when the attribute is wrong.", "anchors": ["src/falwa/xarrayinterface.py:integrate_budget"]}
{"id": "C202", "title": "Limits of the two parts of the wave activity", "statement": "A field is sampled on ever finer regular grids. With return_partitioned_lwa=True, BarotropicField and barotropic_eqlat_lwa return two fields. The first tends to the anomalies of air below the reference value that lies north of the latitude, the second to those of air above it that lies south, where the reference value is the one whose contour encloses the area south of the latitude. For the mirrored field with the sign changed the two exchange their roles, so the first is the anticyclonic part in the Northern Hemisphere and the cyclonic part in the Southern.", "quantifier": "all continuous fields, all latitudes between the poles, all longitudes, all sequences of regular grids with ever more rows, columns and partitions", "why_tests_cant": "It is about the limit of fine grids for every field, and tells the two parts apart from their sum; tests check shapes and stored numbers.", "anchors": ["src/falwa/barotropic_field.py:BarotropicField", "src/falwa/wrapper.py:barotropic_eqlat_lwa", "src/falwa/basis.py:lwa"]}
{"id": "C203", "title": "integrate_budget summed over a whole circle of latitude", "statement": "A QG motion is sampled at times and on grids, analysed, and the output given to integrate_budget. Summed over all columns of a row, the zonal term czaf is exactly zero on every grid and time axis; the other terms tend to those of the budget of the zonal mean: change of wave activity, time integrals of the divergence of the eddy momentum flux and of the flux up through the ground; the residual tends to the source of QGPV less the change of the reference values, less what leaves through the top and what displaced air carries through the ends of the region.", "quantifier": "all motions that obey the equations and are periodic in longitude, all latitudes inside a hemisphere (no bound on the cosine), all periods, all tolerances; all time axes with steps below a bound that depends only on motion, period and tolerance; all sequences of ever finer grids", "why_tests_cant": "It is about limits in space and time for every motion, and about an exact cancellation on every grid; a test sees one grid and one time axis.", "anchors": ["src/falwa/xarrayinterface.py:integrate_budget", "src/falwa/oopinterface.py:QGFieldBase.compute_lwa_and_barotropic_fluxes", "src/falwa/utilities.py:zonal_convergence"]}
{"id": "C204", "title": "Attributes of variables converted from hybrid levels", "statement": "update_new_variable_to_pressure writes the variable with the attributes it had (units, long name) plus a description, and leaves the dataset of the model unchanged.", "quantifier": "all variable names, all dictionaries of attributes, all datasets, all lists of variables converted in one run", "why_tests_cant": "The package has no test of the script; the statement is about every dictionary and about what happens to the input, which a comparison of the written file does not show.", "anchors": ["scripts/pre_process_data_in_hybrid_coordinates/vertical_interpolation_hybrid_to_pressure_poisson_filled_below_topo.py:update_new_variable_to_pressure"]}
{"id": "C205", "title": "Error bound of the reference state and wave activity of BarotropicField on a given grid", "statement": "For a field on the sphere whose slope is at most L per radian of latitude and K per radian of longitude, sampled on a regular grid of N intervals and M columns: at every row between the poles, equivalent_latitudes lies between the sphere's reference values at the neighbouring rows, up to L times half a latitude step plus K times a longitude step plus one interval of the partition. If the sphere's reference state has a slope of at most B, equivalent_latitudes is within B times a latitude step plus that amount of it, and lwa is within an explicit amount of the integral that defines local wave activity.", "quantifier": "all fields of bounded slope, all slopes, all regular grids with at least two intervals and one column, all numbers of partitions of at least two, all rows between the poles, all columns", "why_tests_cant": "It bounds the distance from a quantity that is defined by areas on the sphere, for every field and grid size; a test has neither the exact reference state nor all grids.", "anchors": ["src/falwa/barotropic_field.py:BarotropicField.equivalent_latitudes", "src/falwa/barotropic_field.py:BarotropicField.lwa", "src/falwa/basis.py:eqvlat_fawa", "src/falwa/basis.py:lwa"]}
{"id": "C206", "title": "The reference state of BarotropicField does not depend on the orientation of the field", "statement": "Rotate a smooth field on the sphere by any three Euler angles. The value whose contour encloses a given area stays the same, and at rows that tend to the same latitude equivalent_latitudes of the field and of the rotated field have the same limit, although every row and column of the grid then meets other points of the field. For solid body rotation about an axis tilted by any angle, equivalent_latitudes on a given regular grid equals that of rotation about the axis of the planet, sin of the latitude, up to an explicit amount which is the same for all angles.", "quantifier": "all continuously differentiable fields, all Euler angles, all pairs of sequences of refined grids, all latitudes between the poles; for solid body rotation all tilts, grids, numbers of partitions of at least two and rows between the poles", "why_tests_cant": "The grid is not invariant under rotations other than those about the pole by whole columns, so a test sees two different arrays with different answers; only the limit, or a bound on the difference, expresses the invariance.", "anchors": ["src/falwa/barotropic_field.py:BarotropicField.equivalent_latitudes", "src/falwa/basis.py:eqvlat_fawa"]}
{"id": "C207", "title": "Exact solution for BarotropicField: solid body rotation about a tilted axis", "statement": "The absolute vorticity of a layer that rotates with the rate r/2 about an axis tilted by the angle b is r (sin phi cos b + cos phi sin lambda sin b). Sampled on ever finer regular grids, at rows that tend to the latitude phi: equivalent_latitudes tends to r sin phi, the zonal mean of lwa tends to r a (1 - cos b) cos(phi)^2 / 2, and at every longitude lwa tends to the wave activity about r sin phi. The tilt may be any angle, so the wave may be as large as the field itself and the contours may leave and enter the polar caps.", "quantifier": "all radii, rates, tilts, sequences of refined grids and partitions, latitudes between the poles and longitudes", "why_tests_cant": "A test can compare one grid with a number to some tolerance; that the values tend to this closed form for every tilt and latitude, and along every way of refining the grid, is a statement about infinitely many runs.", "anchors": ["src/falwa/barotropic_field.py:BarotropicField.equivalent_latitudes", "src/falwa/barotropic_field.py:BarotropicField.lwa", "src/falwa/basis.py:eqvlat_fawa", "src/falwa/basis.py:lwa"]}
{"id": "C208", "title": "Times extracted with extract_one_timeslice", "statement": "extract_one_timeslice writes a file exactly if the given file has a dimension time and every index lies in it, negative indices counted from the end. The new file has one time per index, in the order asked for, with what the given file holds there, variable by variable; variables without time are kept. Extracting from an extracted file is one extraction. If no field of a session on the QGDataset of the given file raises, then none raises in the same session on the extracted file, and every field ends in the state that it has in the whole dataset.", "quantifier": "all files, lists of indices (of any length, with repetitions, in any order), sessions of method calls, and fields", "why_tests_cant": "A test extracts particular indices from a particular file; independence of the other times for every session of calls is an invariant over all histories.", "anchors": ["src/falwa/netcdf_utils.py:extract_one_timeslice", "src/falwa/xarrayinterface.py:QGDataset"]}
{"id": "C209", "title": "Reference QGPV of the QG classes: independent of orientation, and an exact solution", "statement": "Two flows are analysed with QGFieldNHN22 or QGFieldNH18 on ever finer grids. If on every level the QGPV of the second is that of the first after a rotation of the sphere, by angles that may change with height, then the reference QGPV of a latitude and a height has the same limit for both. If the QGPV of every level is that of solid body rotation about a tilted axis, r (sin phi cos b + cos phi sin(lambda + c) sin b), then qref tends to r sin phi at every latitude and height in both hemispheres, and lwa and its column average tend to the wave activity about r sin phi.", "quantifier": "both classes and hemispheres, all smooth QGPV fields that are extreme on null sets only, all rotations and tilts per level, all sequences of refined grids, all latitudes and heights", "why_tests_cant": "A test can rotate one field on one grid, where rotation does not map grid points to grid points and the answers differ; equality of the limits and their closed form concern all grids and fields.", "anchors": ["src/falwa/oopinterface.py:QGFieldNHN22.compute_reference_states", "src/falwa/oopinterface.py:QGFieldNH18.compute_reference_states", "src/falwa/f90_modules/compute_qref_and_fawa_first.f90", "src/falwa/f90_modules/compute_reference_states.f90"]}
{"id": "C210", "title": "Reference profile of the barotropic analysis in machine arithmetic: numbers, not NaN, and accurate", "statement": "Rounding cannot push the argument of arcsin in eqvlat_fawa above 1 as long as the cells below the maximum of the field leave the fraction N u of the sphere free, where u is the unit roundoff and N the number of roundings an area goes through (so if all cells do, or if they fit on the sphere and each covers that fraction): the profile is then an array of numbers for every field and every order of summation. Its value at a latitude lies, up to one contour interval, between the exact contour values of the area south of that latitude shifted by the fraction 5 N u of a hemisphere; the computed contour interval is the exact one up to 20 u times the largest absolute value of the field. The default areas of BarotropicField on a grid from pole to pole leave that room when 4 (D + n + 40) (nlat - 1)^2 u <= 3, with D the largest number of additions a summand goes through and n the number of contours.", "quantifier": "all fields, areas, grids, orders of summation, radii and monotone roundings of relative error u that keep 1, 2 and -1", "why_tests_cant": "Whether a rounded quotient exceeds 1 by one unit in the last place depends on the field and on the order in which numpy adds; a test sees one of each, and the NaN it would give spreads over the whole profile.", "anchors": ["src/falwa/basis.py:eqvlat_fawa", "src/falwa/barotropic_field.py:BarotropicField.equivalent_latitudes", "src/falwa/barotropic_field.py:BarotropicField.__init__"]}
{"id": "C211", "title": "Barotropic reference profile and wave activity: total error in machine arithmetic", "statement": "Take a field on the sphere with bounded slopes whose exact profile is Lipschitz, hand its rounded values on a pole-to-pole grid to BarotropicField, and let the machine round every product and sum. On the rows at least two away from the poles the computed profile differs from the exact one by at most B times two latitude spacings, plus the explicit grid error of C205, plus 43 u times the size of the field. The computed wave activity differs from the integral on the sphere by at most an explicit amount proportional to the spacings, the contour interval and u. The rounding part does not hide a factor that grows with the grid, apart from the number of additions a summand of the wave activity goes through.", "quantifier": "all fields with bounded slopes, radii, grid sizes, numbers of contours, orders of summation and monotone roundings of relative error u that keep 1, 2 and -1", "why_tests_cant": "A test compares one field at one resolution with a tolerance; it cannot say how discretisation and rounding add up for all fields, nor that rounding does not take over as the grid is refined.", "anchors": ["src/falwa/basis.py:eqvlat_fawa", "src/falwa/basis.py:lwa", "src/falwa/barotropic_field.py:BarotropicField.equivalent_latitudes", "src/falwa/barotropic_field.py:BarotropicField.lwa", "src/falwa/barotropic_field.py:BarotropicField.__init__"]}
{"id": "C212", "title": "Absolute vorticity and QGPV of the direct inversion in single precision", "statement": "compute_qgpv_direct_inv works in single precision. In every row between the poles the absolute vorticity it returns is within 144 u times (rotation rate + greatest wind / (a cos^2(latitude) dphi)) of the exact value of its finite differences, where u is the unit roundoff: one factor 1/cos comes from the derivative, the other from the error of the computed cosine. At the poles, where the routine averages the neighbouring row, one relative error per column is added. Between the poles the QGPV is within 91 u times the sum of the sizes of its terms, where the stretching term counts the two levels with their absolute values. The bound holds while 32 u (nlat - 1) <= 1.", "quantifier": "all winds, temperatures, static stabilities, reference temperatures, radii, rotation rates, increasing heights, grids and roundings of relative error u", "why_tests_cant": "Cancellation in differences of nearly equal single-precision numbers depends on the values; a test with one field and a tolerance does not bound the loss for others, nor its growth toward the poles and with resolution.", "anchors": ["src/falwa/f90_modules/compute_qgpv_direct_inv.f90:compute_qgpv_direct_inv"]}
{"id": "C213", "title": "Total error of the single-precision absolute vorticity on a given grid", "statement": "Let the arrays hold a smooth wind on the sphere up to an error e, on a grid with the same spacing dphi in both directions. At every column, the date line included, and every row between the poles, the absolute vorticity of compute_qgpv_direct_inv differs from 2 om sin(lat) + (dV/dlon - d(U cos)/dlat) / (a cos) by at most 2 D dphi^2 / (a cos), where D bounds the third derivatives, plus 2 e / (a cos dphi) from the data, plus the rounding error of C212. The first falls with the square of the spacing, the others grow with its inverse, so refining a grid in single precision helps only to a point that the bound names.", "quantifier": "all smooth winds, data errors, grids with equal spacings, radii, rotation rates and roundings of relative error u", "why_tests_cant": "Tests run on one grid; the order of accuracy and the crossover between truncation and rounding are statements about all grids and all fields.", "anchors": ["src/falwa/f90_modules/compute_qgpv_direct_inv.f90:compute_qgpv_direct_inv"]}
{"id": "C214", "title": "Total error of the single-precision QGPV on a given grid", "statement": "Let the arrays hold a smooth wind up to an error e on a grid with equal horizontal spacings dphi, and let exp(-z/H) (theta - t0) / stat be, up to an error n, a smooth profile g of height at the two levels next to the one considered, which are dz away. Between the poles the QGPV of compute_qgpv_direct_inv differs from f + relative vorticity + f exp(z/H) g'(z) of the flow by at most the errors of the vorticity in C213, plus 2 |om| exp(z/H) (D dz^2 + n/dz), where D bounds the third derivative of g, plus the rounding error of C212, whose part of the stretching term is given by the profile itself. In both hemispheres the reference state that counts is that of the row's own side.", "quantifier": "all smooth winds and profiles, data errors, horizontal spacings, level spacings, reference states, radii, rotation rates and roundings of relative error u", "why_tests_cant": "Tests run on one grid and one field; the order of accuracy in both directions and the share of rounding are statements about all of them.", "anchors": ["src/falwa/f90_modules/compute_qgpv_direct_inv.f90:compute_qgpv_direct_inv"]}
{"id": "C215", "title": "Rounding error of compute_qgpv, whose stretching term carries the zonal-mean vorticity", "statement": "compute_qgpv (the NH18 object) works in single precision, takes its latitudes in degrees, and multiplies the stretching term by the zonal mean of the absolute vorticity, a sum over all columns. Between the poles its QGPV is within ((1+72u)(1+21u)(1+16u)(1+2u)(1+u)^(nlon+6) - 1) times (2 |om| + 2 W / (a cos^2 dphi)) (1 + exp(z/H) (|alt+| + |alt-|) / (z+ - z-)) of the value of the same formulas in exact arithmetic, W the greatest wind: the mean costs one relative error per column and no more. The latitude by way of degrees is within 15 u, so that library sines and cosines accurate to u are accurate to 16 u at the exact latitude.", "quantifier": "all fields bounded by W, grids, levels, reference states, and roundings of relative error u", "why_tests_cant": "A test compares one field in one precision with stored numbers; the bound is about every field, and names the size of the grid in it.", "anchors": ["src/falwa/f90_modules/compute_qgpv.f90:compute_qgpv"]}
{"id": "C216", "title": "Present wave activity limits the acceleration of the zonal-mean wind at all times", "statement": "Let absolute vorticity be carried by its own wind on the rotating sphere, without sources. From one analysis by BarotropicField at one time, on ever finer regular grids, the zonal mean of lwa over the cosine of latitude tends to a number alpha where the rows tend to a latitude. At no time, before or after, does the zonal mean of the zonal wind at that latitude exceed its value at the time of the analysis by more than alpha.", "quantifier": "all source-free motions of the sphere whose wind has the vorticity as its own, all latitudes between the poles, all times, all sequences of finer grids and partitions", "why_tests_cant": "It is a statement about a limit and about all times of a flow that tests do not integrate.", "anchors": ["src/falwa/barotropic_field.py:BarotropicField.lwa", "src/falwa/basis.py:lwa", "src/falwa/basis.py:eqvlat_fawa"]}
{"id": "C217", "title": "Rounding error of QGPV in the rows of the poles", "statement": "In the rows of the poles both QGPV routines use, for the vorticity, the mean over the columns of the neighbouring row. The single-precision QGPV there is within ((1+88u)(1+u)^(nlon+2) - 1) times the sum of the sizes of its terms for compute_qgpv_direct_inv. For compute_qgpv, which averages the constant row once more for its stretching term, it is within ((1+72u)(1+21u)(1+16u)(1+2u)(1+u)^(2 nlon+7) - 1) times the product of the bound of vorticity and the size of the stretching. The sizes use the cosine of the neighbouring row, not that of the pole, which is zero.", "quantifier": "all fields bounded by W, grids with at least three rows, levels, reference states, and roundings of relative error u", "why_tests_cant": "Tests skip the pole rows or compare one field; the bound is about every field and grid.", "anchors": ["src/falwa/f90_modules/compute_qgpv_direct_inv.f90:compute_qgpv_direct_inv", "src/falwa/f90_modules/compute_qgpv.f90:compute_qgpv"]}
{"id": "C218", "title": "Total error of the QGPV of compute_qgpv on a given grid", "statement": "Let the arrays hold a smooth wind up to an error e on a grid with equal horizontal spacings dphi, and let exp(-z/H) (theta - t0) / stat be, up to an error n, a smooth profile g of height at the two levels dz above and below. Between the poles the QGPV of compute_qgpv differs from q + M exp(z/H) g'(z), where q is the absolute vorticity of the flow at the point and M its mean over the columns of the row, by at most T (1 + exp(z/H) (|g'| + d)) + Q exp(z/H) d plus the rounding error of C215. Here T is the bound of C213 for the vorticity, d = D dz^2 + n/dz, and Q bounds |q| on the row. The routine so approximates a QGPV whose stretching term carries the mean absolute vorticity, not the Coriolis parameter.", "quantifier": "all smooth winds and profiles, data errors, horizontal and vertical spacings, reference states, radii, rotation rates and roundings of relative error u", "why_tests_cant": "Tests run on one grid and one field; which continuous quantity is approximated, and how well, is a statement about all of them.", "anchors": ["src/falwa/f90_modules/compute_qgpv.f90:compute_qgpv"]}
{"id": "C219", "title": "Error bound of barotropic_eqlat_lwa on a given grid", "statement": "Call barotropic_eqlat_lwa with a field on the sphere whose slope is at most L per radian of latitude and K per radian of longitude, sampled on a regular grid of N intervals and M columns, with the areas and length elements of that grid, and let the sphere's reference state have a slope of at most B. The call succeeds. At every row between the poles the profile is within B pi/N plus L pi/(2N) plus K 2 pi/M plus one interval of the partition of the reference state, and at every column of these rows the wave activity is within an explicit amount, of first order in the spacings, of the integral that defines local wave activity.", "quantifier": "all continuous fields with bounded slopes, grids with at least two intervals, numbers of columns and partitions, radii", "why_tests_cant": "Tests compare one field on one grid with stored numbers; the bound is about all fields and grids.", "anchors": ["src/falwa/wrapper.py:barotropic_eqlat_lwa", "src/falwa/basis.py:eqvlat_fawa", "src/falwa/basis.py:lwa"]}
{"id": "C220", "title": "QGPV of compute_qgpv against the flow with the mean along the circle of latitude", "statement": "In the setting of C218, let dV/dlon - d(U cos)/dlat change by at most K per radian of longitude on the row. Then the single-precision QGPV of compute_qgpv between the poles differs from q + M exp(z/H) g'(z), where M is now the mean of the absolute vorticity along the whole circle of latitude, by at most the bound of C218 plus K dphi / (a cos) times exp(z/H) |g'(z)|. The grid enters only through its spacings.", "quantifier": "all smooth winds and profiles, slopes, data errors, horizontal and vertical spacings, reference states, radii, rotation rates and roundings of relative error u", "why_tests_cant": "It compares a computed field with an integral over a circle, for all fields and grids.", "anchors": ["src/falwa/f90_modules/compute_qgpv.f90:compute_qgpv"]}
{"id": "C221", "title": "Sensitivity of the QGPV of the direct inversion to its input fields", "statement": "Take two sets of winds and potential temperatures on the same grid with the same reference state. If the winds differ by at most eps, the absolute vorticities differ between the poles by at most eps / (a dphi) (1 / cos(lat) + cos(dphi)), and in the rows of the poles by at most eps cos(dphi) / (a dphi), where the meridional wind has no influence. On grids of at least three columns both bounds are attained, at every column. If the temperatures differ by at most tau as well, the QGPV at inner levels differs by at most eps / (a dphi) (1 / cos(lat') + cos(dphi)) plus exp(z/H) |f| tau (exp(-z+/H)/|stat+| + exp(-z-/H)/|stat-|) / |z+ - z-|, with lat' the latitude of the row, or of the neighbouring row at a pole.", "quantifier": "all grids of at least three rows and three columns, all pairs of fields, all reference states, all rows, columns and inner levels", "why_tests_cant": "It bounds a difference over all pairs of input fields, and shows that no smaller bound holds for the vorticity.", "anchors": ["src/falwa/f90_modules/compute_qgpv_direct_inv.f90:compute_qgpv_direct_inv"]}
{"id": "C222", "title": "Sensitivity of the QGPV of compute_qgpv to its input fields", "statement": "Take two sets of winds and potential temperatures on the same grid with the same reference state, winds differing by at most eps and temperatures by at most tau. Let E = eps / (a dphi) (1 / cos(lat') + cos(dphi)) with lat' the latitude of the row, or of the neighbouring row at a pole, D = tau (exp(-z+/H)/|stat+| + exp(-z-/H)/|stat-|), M the zonal mean of the vorticity and A the difference of the scaled temperatures of the first set. Then the QGPV of compute_qgpv at inner levels differs by at most E + exp(z/H) (|M| D + E (|A| + D)) / |z+ - z-|, in all rows including the poles.", "quantifier": "all grids of at least three rows, all pairs of fields, all reference states, all rows, columns and inner levels", "why_tests_cant": "It bounds a difference over all pairs of input fields; the QGPV of compute_qgpv is not linear in them.", "anchors": ["src/falwa/f90_modules/compute_qgpv.f90:compute_qgpv"]}
