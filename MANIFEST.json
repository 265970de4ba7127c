{
 "claims": [
  {
   "property": "C01",
   "status": "proved",
   "theorems": [
    "MieDiff.C01_pi_tau",
    "MieDiff.C01_pi_tau_poly",
    "MieDiff.C01_pi_tau_reject"
   ],
   "note": "piTau model equals Legendre derivatives; n<1 rejected"
  },
  {
   "property": "C02",
   "status": "proved",
   "theorems": [
    "MieDiff.C02_forward",
    "MieDiff.C02_backward",
    "MieDiff.C02_symmetric"
   ],
   "note": ""
  },
  {
   "property": "C03",
   "status": "proved",
   "theorems": [
    "MieDiff.C03_optical_theorem"
   ],
   "note": ""
  },
  {
   "property": "C04",
   "status": "proved",
   "theorems": [
    "MieDiff.C04_integrated_pattern"
   ],
   "note": "orthogonality integrals proved"
  },
  {
   "property": "C05",
   "status": "proved",
   "theorems": [
    "MieDiff.C05_ext_eq_sca_add_abs",
    "MieDiff.C05_totals",
    "MieDiff.C05_efficiencies",
    "MieDiff.C05_multipoles",
    "MieDiff.C05_sca_nonneg"
   ],
   "note": ""
  },
  {
   "property": "C06",
   "status": "proved",
   "theorems": [
    "MieDiff.C06_lossless",
    "MieDiff.C06_cs_abs_zero",
    "MieDiff.C06_depth_limit"
   ],
   "note": "exact with exact logarithmic derivatives (real permittivities of either sign); the code's absorption tends to 0 with the recurrence depth"
  },
  {
   "property": "C07",
   "status": "proved",
   "theorems": [
    "MieDiff.C07_passive",
    "MieDiff.C07_cs_abs_nonneg",
    "MieDiff.C07_depth_limit"
   ],
   "note": "exact with exact logarithmic derivatives; limit statement for the code's truncated recurrence"
  },
  {
   "property": "C08",
   "status": "proved",
   "theorems": [
    "MieDiff.C08_matched_invisible",
    "MieDiff.C08_small_sphere"
   ],
   "note": "for every kernel with a nonvanishing clear condition; unconditional for the shipped kernel at small arguments"
  },
  {
   "property": "C09",
   "status": "proved",
   "theorems": [
    "MieDiff.C09_split_layer"
   ],
   "note": "for every kernel, automatic n_max included"
  },
  {
   "property": "C10",
   "status": "proved",
   "theorems": [
    "MieDiff.C10_scale_coefficients",
    "MieDiff.C10_scale_cross_sections",
    "MieDiff.C10_scale_nearfields",
    "MieDiff.C10_scale_nearfields_torch",
    "MieDiff.C10_scale_get_nearfields"
   ],
   "note": "for every backend"
  },
  {
   "property": "C11",
   "status": "proved",
   "theorems": [
    "MieDiff.C11_interface_conditions",
    "MieDiff.C11_depth_limit"
   ],
   "note": "existence and uniqueness with exact logarithmic derivatives; limit statement for the code's truncated recurrence"
  },
  {
   "property": "C12",
   "status": "proved",
   "theorems": [
    "MieDiff.C12_boundary_equations",
    "MieDiff.C12_unique",
    "MieDiff.C12_solves"
   ],
   "note": "algebraic identity for all eight coefficients, uniqueness, and the interface problem with exact special functions"
  },
  {
   "property": "C13",
   "status": "proved",
   "theorems": [
    "MieDiff.C13_backends_agree"
   ],
   "note": "with exact special functions on both sides"
  },
  {
   "property": "C14",
   "status": "proved",
   "theorems": [
    "MieDiff.C14_tangential_fields",
    "MieDiff.C14_region_coefficients"
   ],
   "note": "with exact logarithmic derivatives and inactive guards; tangential field components with epsilon = 0"
  },
  {
   "property": "C15",
   "status": "proved",
   "theorems": [
    "MieDiff.C15_one_region",
    "MieDiff.C15_interface_inner",
    "MieDiff.C15_total_field"
   ],
   "note": ""
  },
  {
   "property": "C16",
   "status": "proved",
   "theorems": [
    "MieDiff.C16_linear"
   ],
   "note": "for every kernel, errors included"
  },
  {
   "property": "C17",
   "status": "proved",
   "theorems": [
    "MieDiff.C17_error",
    "MieDiff.C17_default",
    "MieDiff.C17_tendsto",
    "MieDiff.C17_no_extra"
   ],
   "note": "geometric error bound, limit at every order, failure without extra orders"
  },
  {
   "property": "C18",
   "status": "proved",
   "theorems": [
    "MieDiff.C18_upward_exact",
    "MieDiff.C18_wronskian"
   ],
   "note": "given exact D1 and inactive guards"
  },
  {
   "property": "C19",
   "status": "proved",
   "theorems": [
    "MieDiff.C19_interface_ratio"
   ],
   "note": "given exact logarithmic derivatives and inactive guards"
  },
  {
   "property": "C20",
   "status": "proved",
   "theorems": [
    "MieDiff.C20_sph_yn",
    "MieDiff.C20_reject"
   ],
   "note": ""
  },
  {
   "property": "C21",
   "status": "proved",
   "theorems": [
    "MieDiff.C21_f_der",
    "MieDiff.C21_riccati",
    "MieDiff.C21_single_order"
   ],
   "note": ""
  },
  {
   "property": "C22",
   "status": "proved",
   "theorems": [
    "MieDiff.C22_via_rec_structure",
    "MieDiff.C22_via_rec_tendsto",
    "MieDiff.C22_ratio_order_zero",
    "MieDiff.C22_ratio_recurrence_or_guard",
    "MieDiff.C22_ratio_recurrence",
    "MieDiff.C22_ratio_tendsto",
    "MieDiff.C22_ratio_origin",
    "MieDiff.C22_ratio_tiny"
   ],
   "note": "structure and limit of both algorithms; the exact-zero guard of the ratio variant is visible in the recurrence statement"
  },
  {
   "property": "C23",
   "status": "proved",
   "theorems": [
    "MieDiff.C23_gradients",
    "MieDiff.C23_second_derivative"
   ],
   "note": "gradient correctness stated through real Frechet derivatives of an arbitrary loss"
  },
  {
   "property": "C24",
   "status": "partial",
   "theorems": [
    "MieDiff.C24_value_backward",
    "MieDiff.C24_der_backward_iff",
    "MieDiff.C24_fails"
   ],
   "note": "the property is false for sph_jn_der/sph_yn_der: negation with witness, exact characterisation of when the buffer is unchanged"
  },
  {
   "property": "C25",
   "status": "proved",
   "theorems": [
    "MieDiff.C25_wiscombe_mono",
    "MieDiff.C25_wiscombe_batch",
    "MieDiff.C25_wiscombe_ge",
    "MieDiff.C25_breakpoints",
    "MieDiff.C25_pena",
    "MieDiff.C25_exact"
   ],
   "note": ""
  },
  {
   "property": "C26",
   "status": "proved",
   "theorems": [
    "MieDiff.C26_coefficients",
    "MieDiff.C26_cross_sections",
    "MieDiff.C26_angular",
    "MieDiff.C26_shapes",
    "MieDiff.C26_auto"
   ],
   "note": "pena backend; at a given n_max every batch entry equals the single evaluation, errors included; automatic n_max is the common rule over the batch"
  },
  {
   "property": "C27",
   "status": "proved",
   "theorems": [
    "MieDiff.C27_reject",
    "MieDiff.C27_layouts"
   ],
   "note": "pena backend; every documented layout, everything else rejected"
  },
  {
   "property": "C28",
   "status": "proved",
   "theorems": [
    "MieDiff.C28_incomplete",
    "MieDiff.C28_precedence",
    "MieDiff.C28_homogeneous",
    "MieDiff.C28_coreshell",
    "MieDiff.C28_reject_shape",
    "MieDiff.C28_reject"
   ],
   "note": "incomplete inputs rejected, layer inputs take precedence, exact layouts of one- and two-layer legacy inputs"
  },
  {
   "property": "C29",
   "status": "proved",
   "theorems": [
    "MieDiff.C29_increasing"
   ],
   "note": ""
  },
  {
   "property": "C30",
   "status": "proved",
   "theorems": [
    "MieDiff.C30_accept",
    "MieDiff.C30_reject",
    "MieDiff.C30_stack"
   ],
   "note": "exact set of accepted combinations; rejected ones raise ValueError unless a material or the pair of legacy radii is malformed"
  },
  {
   "property": "C31",
   "status": "proved",
   "theorems": [
    "MieDiff.C31_consistent",
    "MieDiff.C31_last",
    "MieDiff.C31_new",
    "MieDiff.C31_sharing"
   ],
   "note": "every history without sharing; negation with a shared object"
  },
  {
   "property": "C32",
   "status": "proved",
   "theorems": [
    "MieDiff.C32_layer",
    "MieDiff.C32_env",
    "MieDiff.C32_total"
   ],
   "note": "up to the complex64 cast; after every history"
  },
  {
   "property": "C33",
   "status": "proved",
   "theorems": [
    "MieDiff.C33_convex",
    "MieDiff.C33_weights",
    "MieDiff.C33_linear",
    "MieDiff.C33_table",
    "MieDiff.C33_outside",
    "MieDiff.C33_row_order",
    "MieDiff.C33_duplicate_rows"
   ],
   "note": "equal abscissae with different values depend on the unstable sort (shown)"
  },
  {
   "property": "C34",
   "status": "proved",
   "theorems": [
    "MieDiff.C34_single",
    "MieDiff.C34_list"
   ],
   "note": "rounding to float32/complex64 is an arbitrary function; failing calls and an initial lookup table are part of the histories"
  },
  {
   "property": "C35",
   "status": "partial",
   "theorems": [
    "MieDiff.C35_first_partial",
    "MieDiff.C35_constant_partial",
    "MieDiff.C35_stale_partial",
    "MieDiff.C35_negation"
   ],
   "note": "the property is false: negation with witness; the first request for a wavelength is attached to the caller, every later equal one to the first tensor"
  },
  {
   "property": "C36",
   "status": "proved",
   "theorems": [
    "MieDiff.C36_rows",
    "MieDiff.C36_reject",
    "MieDiff.C36_split"
   ],
   "note": "splitting of the text, row values, rejected rows"
  },
  {
   "property": "C37",
   "status": "proved",
   "theorems": [
    "MieDiff.C37_sellmeier",
    "MieDiff.C37_unpaired",
    "MieDiff.C37_other"
   ],
   "note": ""
  },
  {
   "property": "C38",
   "status": "proved",
   "theorems": [
    "MieDiff.C38_ranges",
    "MieDiff.C38_inverse",
    "MieDiff.C38_inverse",
    "MieDiff.C38_unitary",
    "MieDiff.C38_frame",
    "MieDiff.C38_axis"
   ],
   "note": "both directions; on the z axis the clamp moves the point (shown)"
  },
  {
   "property": "C39",
   "status": "proved",
   "theorems": [
    "MieDiff.C39_rotation",
    "MieDiff.C39_add",
    "MieDiff.C39_axis",
    "MieDiff.C39_sense"
   ],
   "note": "matrices in SO(3), addition of angles, fixed axes, right-hand sense"
  },
  {
   "property": "C40",
   "status": "proved",
   "theorems": [
    "MieDiff.C40_frame",
    "MieDiff.C40_rotated",
    "MieDiff.C40_incident",
    "MieDiff.C40_reject",
    "MieDiff.C40_accept",
    "MieDiff.C40_native"
   ],
   "note": "phase along the rotated direction is exact off the poles; the native pena wave comes from the near-field model (C40_native); for the torch backend the native wave is a hypothesis"
  },
  {
   "property": "C41",
   "status": "proved",
   "theorems": [
    "MieDiff.C41_entries",
    "MieDiff.C41_negative"
   ],
   "note": "exact list, both polarisations, every plane; ValueError cases"
  },
  {
   "property": "C42",
   "status": "proved",
   "theorems": [
    "MieDiff.C42_supported",
    "MieDiff.C42_forced",
    "MieDiff.C42_radius"
   ],
   "note": ""
  },
  {
   "property": "C43",
   "status": "partial",
   "theorems": [
    "MieDiff.C43_entries_partial",
    "MieDiff.C43_raises",
    "MieDiff.C43_uniform_partial",
    "MieDiff.C43_incident_partial",
    "MieDiff.C43_silently_wrong",
    "MieDiff.C43_two_wavelengths"
   ],
   "note": "false as stated: proved what the tensor code returns for every shape that runs, that all other shapes raise, a silently wrong case with three wavelengths and a raising case with two; holds when media and radii are equal over the batch"
  },
  {
   "property": "C44",
   "status": "partial",
   "theorems": [
    "MieDiff.C44_order_last",
    "MieDiff.C44_one_order_partial",
    "MieDiff.C44_particle",
    "MieDiff.C44_shape",
    "MieDiff.C44_fails_partial"
   ],
   "note": "holds for two or more orders; with a single order the squeeze drops the order axis: result of wrong shape or IndexError (proved)"
  },
  {
   "property": "C45",
   "status": "partial",
   "theorems": [
    "MieDiff.C45_fails_partial",
    "MieDiff.C45_negation_partial"
   ],
   "note": "false: a given n_env always raises (TypeError when equal, AssertionError when different), proved; the material check itself is modelled"
  },
  {
   "property": "C46",
   "status": "partial",
   "theorems": [
    "MieDiff.C46_int_depth_fails",
    "MieDiff.C46_auto_partial",
    "MieDiff.C46_depth_partial"
   ],
   "note": "the property is false: every int depth is rejected; the 'auto' part is proved"
  },
  {
   "property": "C47",
   "status": "proved",
   "theorems": [
    "MieDiff.C47_vsh_pena",
    "MieDiff.C47_vsh",
    "MieDiff.C47_maxwell"
   ],
   "note": "exact radial functions, epsilon = 0; vsh kind 2 uses -y_n"
  },
  {
   "property": "C48",
   "status": "proved",
   "theorems": [
    "MieDiff.C48_polarimetric"
   ],
   "note": ""
  },
  {
   "property": "C49",
   "status": "proved",
   "theorems": [
    "MieDiff.C49_case_insensitive",
    "MieDiff.C49_unknown",
    "MieDiff.C49_too_many_layers",
    "MieDiff.C49_internal",
    "MieDiff.C49_bad_order",
    "MieDiff.C49_which_jn"
   ],
   "note": ""
  },
  {
   "property": "C50",
   "status": "proved",
   "theorems": [
    "MieDiff.C50_entries",
    "MieDiff.C50_absorption",
    "MieDiff.C50_extinction",
    "MieDiff.C50_passive"
   ],
   "note": "entries, zero absorption for real pairs, passivity"
  },
  {
   "property": "C51",
   "status": "proved",
   "theorems": [
    "MieDiff.C51_plane_wave",
    "MieDiff.C51_EnCoef"
   ],
   "note": ""
  },
  {
   "property": "C52",
   "status": "proved",
   "theorems": [
    "MieDiff.C52_tables",
    "MieDiff.C52_passive",
    "MieDiff.C52_formulas"
   ],
   "note": "all shipped files parsed by the kernel; formula files have no pole in their range and eps > 1 there"
  },
  {
   "property": "C53",
   "status": "proved",
   "theorems": [
    "MieDiff.C53_scale",
    "MieDiff.C53_relation",
    "MieDiff.C53_range",
    "MieDiff.C53_total"
   ],
   "note": ""
  },
  {
   "property": "C54",
   "status": "proved",
   "theorems": [
    "MieDiff.C54_combine",
    "MieDiff.C54_reject"
   ],
   "note": ""
  },
  {
   "property": "C55",
   "status": "partial",
   "theorems": [
    "MieDiff.C55_case",
    "MieDiff.C55_lookup",
    "MieDiff.C55_list",
    "MieDiff.C55_verbose_partial"
   ],
   "note": "false for verbose=True on every non-empty database (TypeError); lookup and plain listing proved"
  },
  {
   "property": "C56",
   "status": "proved",
   "theorems": [
    "MieDiff.C56_one_axis",
    "MieDiff.C56_reshape",
    "MieDiff.C56_many_axes",
    "MieDiff.C56_elements"
   ],
   "note": ""
  },
  {
   "property": "C57",
   "status": "proved",
   "theorems": [
    "MieDiff.C57_recurrence",
    "MieDiff.C57_ratio",
    "MieDiff.C57_scipy",
    "MieDiff.C57_observables",
    "MieDiff.C57_auto",
    "MieDiff.C57_layers",
    "MieDiff.C57_one_entry",
    "MieDiff.C57_same_rec",
    "MieDiff.C57_same_ratio",
    "MieDiff.C57_depends"
   ],
   "note": "the depth condition is part of the statement; C57_depends shows that it is needed"
  },
  {
   "property": "C58",
   "status": "proved",
   "theorems": [
    "MieDiff.C58_pena",
    "MieDiff.C58_radii",
    "MieDiff.C58_auto",
    "MieDiff.C58_torch",
    "MieDiff.C58_torch_ratio",
    "MieDiff.C58_scipy",
    "MieDiff.C58_layers",
    "MieDiff.C58_gradient"
   ],
   "note": "wavenumbers: at least one; casts to float32/complex64 are arbitrary functions"
  },
  {
   "property": "C59",
   "status": "proved",
   "theorems": [
    "MieDiff.C59_d1_error",
    "MieDiff.C59_d1_tendsto",
    "MieDiff.C59_d1_entry",
    "MieDiff.C59_d1_reject",
    "MieDiff.C59_d1_reject_entry",
    "MieDiff.C59_d3_exact",
    "MieDiff.C59_d3_zero",
    "MieDiff.C59_d3_number"
   ],
   "note": "n_add='auto' (an int is rejected, C46)"
  },
  {
   "property": "C60",
   "status": "proved",
   "theorems": [
    "MieDiff.C60_xi",
    "MieDiff.C60_ql",
    "MieDiff.C60_psi_none",
    "MieDiff.C60_psi_runs"
   ],
   "note": "which exception is raised first depends on shapes and is not claimed"
  },
  {
   "property": "C61",
   "status": "proved",
   "theorems": [
    "MieDiff.C61_incident",
    "MieDiff.C61_expansion",
    "MieDiff.C61_tendsto",
    "MieDiff.C61_maxwell",
    "MieDiff.C61_jump"
   ],
   "note": "exact logarithmic derivatives, shift epsilon = 0 (the code shifts the radial argument by 1e-8)"
  },
  {
   "property": "C62",
   "status": "proved",
   "theorems": [
    "MieDiff.C62_raises",
    "MieDiff.C62_single",
    "MieDiff.C62_recurrence",
    "MieDiff.C62_agree"
   ],
   "note": "agreement of the backends is for exact special functions; several wavelengths or particles: see C43"
  },
  {
   "property": "C63",
   "status": "proved",
   "theorems": [
    "MieDiff.C63_entries",
    "MieDiff.C63_shapes",
    "MieDiff.C63_auto",
    "MieDiff.C63_point",
    "MieDiff.C63_grid"
   ],
   "note": ""
  },
  {
   "property": "C64",
   "status": "proved",
   "theorems": [
    "MieDiff.C64_pena",
    "MieDiff.C64_auto",
    "MieDiff.C64_assert",
    "MieDiff.C64_torch",
    "MieDiff.C64_raises"
   ],
   "note": "several wavenumbers with the torch backend: see C43"
  },
  {
   "property": "C65",
   "status": "proved",
   "theorems": [
    "MieDiff.C65_pena",
    "MieDiff.C65_torch",
    "MieDiff.C65_auto"
   ],
   "note": "the fit itself (extract_gpm_from_fields) belongs to the torchgdm package"
  },
  {
   "property": "C66",
   "status": "proved",
   "theorems": [
    "MieDiff.C66_disc",
    "MieDiff.C66_circle",
    "MieDiff.C66_limits",
    "MieDiff.C66_core_shell"
   ],
   "note": "pena with the exact logarithmic derivative and inactive 1e-30 guards; core-shell backends with exact Bessel functions."
  },
  {
   "property": "C67",
   "status": "proved",
   "theorems": [
    "MieDiff.C67_coefficients",
    "MieDiff.C67_summable",
    "MieDiff.C67_pena",
    "MieDiff.C67_core_shell",
    "MieDiff.C67_limit"
   ],
   "note": "Coefficient decay, absolute convergence, uniform truncation error and limit. For pena the exact logarithmic derivative with inactive guards; C67_limit is for the core-shell backends because the guards of pena become active at large order."
  },
  {
   "property": "C68",
   "status": "proved",
   "theorems": [
    "MieDiff.C68_solvable",
    "MieDiff.C68_core_shell"
   ],
   "note": "Solvability for any number of layers; the statement about returned values is for the core-shell backends with exact Bessel functions."
  },
  {
   "property": "C69",
   "status": "proved",
   "theorems": [
    "MieDiff.C69_core_shell",
    "MieDiff.C69_pena",
    "MieDiff.C69_intensity"
   ],
   "note": "torch and scipy with exact Bessel functions, without further conditions; pena with the exact logarithmic derivative for any number of layers, at points where the 1e-30 guards are inactive. The factor exp(i 1e-8) of the argument shift of the code is kept."
  },
  {
   "property": "C70",
   "status": "proved",
   "theorems": [
    "MieDiff.C70_regular",
    "MieDiff.C70_coefficients",
    "MieDiff.C70_core_shell",
    "MieDiff.C70_dipole",
    "MieDiff.C70_cross_sections",
    "MieDiff.C70_polarizability"
   ],
   "note": "torch and scipy backends with exact Bessel functions without further conditions; C70_coefficients for every backend and any number of layers under the hypothesis that the calls solve the interface problem (for pena: inactive 1e-30 guards)."
  },
  {
   "property": "C71",
   "status": "proved",
   "theorems": [
    "MieDiff.C71_center_diff",
    "MieDiff.C71_checker",
    "MieDiff.C71_argument",
    "MieDiff.C71_hankel"
   ],
   "note": "Exact Bessel functions. The block special.py:1574-1585 that would call the checker passes keyword arguments it does not accept."
  },
  {
   "property": "C72",
   "status": "proved",
   "theorems": [
    "MieDiff.C72_matrix",
    "MieDiff.C72_coupled",
    "MieDiff.C72_zero_fill",
    "MieDiff.C72_solve"
   ],
   "note": "torchgdm's own methods (polarizability and self-term lists, reduced interaction matrix, mask, get_interact) are parameters; the LU solver is exact."
  },
  {
   "property": "C73",
   "status": "proved",
   "theorems": [
    "MieDiff.C73_coefficients",
    "MieDiff.C73_exact_runs",
    "MieDiff.C73_core_shell",
    "MieDiff.C73_torch_succeeds",
    "MieDiff.C73_cross_sections"
   ],
   "note": "Exact Bessel functions. Analytic means ContDiffAt of order omega. Statements about the returned values of all nearby calls."
  },
  {
   "property": "C74",
   "status": "proved",
   "theorems": [
    "MieDiff.C74_core_shell",
    "MieDiff.C74_pena"
   ],
   "note": "torch/scipy backends with exact Bessel functions; pena backend with the exact logarithmic derivative where its guards are inactive. The sphere integral uses the closed form that the code's results are proved equal to at every position outside (the code itself keeps the polar angle away from the axis by its clamp)."
  },
  {
   "property": "C75",
   "status": "proved",
   "theorems": [
    "MieDiff.C75_pena",
    "MieDiff.C75_core_shell",
    "MieDiff.C75_passive"
   ],
   "note": "torch/scipy backends with exact Bessel functions (the interface problem solvable, which C68 proves for passive particles); pena backend with the exact logarithmic derivative where its guards are inactive. The volume integral uses the closed form that the code's results are proved equal to at every position inside a layer, in the limit of a vanishing shift eps of k r."
  },
  {
   "property": "C76",
   "status": "proved",
   "theorems": [
    "MieDiff.C76_near_fields_converge",
    "MieDiff.C76_accuracy"
   ],
   "note": "torch/scipy backends with exact Bessel functions; pena backend with the exact logarithmic derivative where its guards are inactive. The spherical components are compared; Maxwell's equations are stated off the polar axis. The particle has eps_j + eps_(j+1) != 0 at every interface."
  },
  {
   "property": "C77",
   "status": "proved",
   "theorems": [
    "MieDiff.C77_coefficients",
    "MieDiff.C77_cross_sections",
    "MieDiff.C77_calls_succeed"
   ],
   "note": "pena backend. Derivatives are the mathematical derivatives of the function the code computes (what automatic differentiation returns where no torch.where switches). Permittivities must not lie on the branch cut of the square root unless they are constant."
  },
  {
   "property": "C78",
   "status": "proved",
   "theorems": [
    "MieDiff.C78_exact_arithmetic",
    "MieDiff.C78_log_derivative",
    "MieDiff.C78_accurate",
    "MieDiff.C78_fixed_depth",
    "MieDiff.C78_depth_clear"
   ],
   "note": "Normwise relative error of every operation, no overflow or underflow. Explicit constants for the logarithmic derivatives from order 4|z| on; the statement about coefficients and cross sections is qualitative (existence of u and n_add)."
  },
  {
   "property": "C79",
   "status": "proved",
   "theorems": [
    "MieDiff.C79_coefficients_regular",
    "MieDiff.C79_cross_sections_regular",
    "MieDiff.C79_coefficients",
    "MieDiff.C79_cross_sections",
    "MieDiff.C79_limit",
    "MieDiff.C79_engine"
   ],
   "note": "The derivative formulas of PyTorch's elementary operations are part of the model (Model/Backward) and not verified against the PyTorch source. Permittivities that require a gradient must not lie on the branch cut of the square root. The engine statement is about scalar nodes."
  },
  {
   "property": "C80",
   "status": "proved",
   "theorems": [
    "MieDiff.C80_orders",
    "MieDiff.C80_invisible",
    "MieDiff.C80_pena",
    "MieDiff.C80_wrong"
   ],
   "note": "Exact arithmetic: multiples of pi are not floating point numbers, next to them the code divides rounding errors of the recurrence by each other. Where the determinant of the closed form vanishes too the code returns NaN, the model 0."
  },
  {
   "property": "C81",
   "status": "proved",
   "theorems": [
    "MieDiff.C81_coefficients",
    "MieDiff.C81_internal",
    "MieDiff.C81_cross_sections",
    "MieDiff.C81_scipy",
    "MieDiff.C81_lossless",
    "MieDiff.C81_small",
    "MieDiff.C81_calls_succeed"
   ],
   "note": "Exact arithmetic and one particle at a time (in a batch the largest argument decides the depth). The depth is a step function of the argument: where it changes the computed function is discontinuous and excluded. SciPy is assumed exact; its wrappers are once differentiable only, as in the code."
  },
  {
   "property": "C82",
   "status": "proved",
   "theorems": [
    "MieDiff.C82_angular",
    "MieDiff.C82_shell",
    "MieDiff.C82_pena"
   ],
   "note": "Exact arithmetic, one particle and one angle at a time. Conditions on the coefficients are those of C79 and C81."
  },
  {
   "property": "C83",
   "status": "proved",
   "theorems": [
    "MieDiff.C83_fields",
    "MieDiff.C83_solo",
    "MieDiff.C83_small"
   ],
   "note": "Exact arithmetic, one particle and one probe point at a time; the depths of the recurrences, chosen from the largest argument in the batch, must not change near the parameters. Conditions on the coefficients are those of C81."
  },
  {
   "property": "C84",
   "status": "proved",
   "theorems": [
    "MieDiff.C84_fields",
    "MieDiff.C84_call_succeeds",
    "MieDiff.C84_depth_clear"
   ],
   "note": "Exact arithmetic, one particle and one probe point at a time, recurrence depth n_add = N arbitrary (15 in the code)."
  },
  {
   "property": "C85",
   "status": "partial",
   "theorems": [
    "MieDiff.C85_closed_form",
    "MieDiff.C85_above",
    "MieDiff.C85_real_argument",
    "MieDiff.C85_complex_argument",
    "MieDiff.C85_absorbing",
    "MieDiff.C85_own_order_partial",
    "MieDiff.C85_own_order_real",
    "MieDiff.C85_own_order_complex",
    "MieDiff.C85_own_order_absorbing",
    "MieDiff.C85_far",
    "MieDiff.C85_order_changes_values",
    "MieDiff.C85_core_shell_truncates"
   ],
   "note": "false for a user-given n_max with the pena backend: proved with witness; error of the recurrence in closed form (C85_closed_form), bound at orders not below the argument (C85_above, C85_own_order_partial), wrong values far beyond the start order (C85_far). For real arguments all orders are covered: the returned values belong to psi_k - e chi_k with an explicitly bounded e (C85_real_argument, C85_own_order_real). For arguments in the closed upper half plane all orders are covered as well: psi_k - e zeta_k with explicitly bounded e (C85_complex_argument, C85_own_order_complex); in absorbing layers no guard ever acts and the distance to psi_k'/psi_k is bounded at every order (C85_absorbing, C85_own_order_absorbing)."
  },
  {
   "property": "C86",
   "status": "proved",
   "theorems": [
    "MieDiff.C86_core_shell",
    "MieDiff.C86_pena",
    "MieDiff.C86_default_order",
    "MieDiff.C86_pena_covers",
    "MieDiff.C86_pena_default",
    "MieDiff.C86_missed_resonance",
    "MieDiff.C86_small_sphere"
   ],
   "note": "exact special functions (torch, scipy) or exact logarithmic derivative (pena) assumed; pena also assumes that no guard of the solver fires, which is proved for small spheres (C86_small_sphere). Layers with Re eps <= 0 are outside the condition (surface resonances)."
  },
  {
   "property": "C87",
   "status": "partial",
   "theorems": [
    "MieDiff.C87_pena",
    "MieDiff.C87_polarisation",
    "MieDiff.C87_matched_polarisation"
   ],
   "note": "proved except for the degree of polarisation, for which it is false with a proved witness (C87_matched_polarisation)"
  },
  {
   "property": "C88",
   "status": "partial",
   "theorems": [
    "MieDiff.C88_floor",
    "MieDiff.C88_small",
    "MieDiff.C88_centre",
    "MieDiff.C88_factor",
    "MieDiff.C88_model"
   ],
   "note": "false as stated; C88_floor, C88_small and C88_centre prove the failure, C88_factor bounds the error, C88_model ties the operation by operation program to the model of vsh_pena. The range of the exponent is not limited (no overflow or underflow)."
  },
  {
   "property": "C89",
   "status": "partial",
   "theorems": [
    "MieDiff.C89_overflow",
    "MieDiff.C89_field",
    "MieDiff.C89_core",
    "MieDiff.C89_model"
   ],
   "note": "false as stated: C89_overflow and C89_field prove the failure, C89_core that the coefficients involved are zero, C89_model that the range-limited program is the model of nearfields as long as no value leaves the range. The logarithmic derivatives are computed without range check; fewer orders are not covered (in exact arithmetic the overflow starts at about order 33)."
  },
  {
   "property": "C90",
   "status": "partial",
   "theorems": [
    "MieDiff.C90_zeta",
    "MieDiff.C90_coefficients",
    "MieDiff.C90_cross",
    "MieDiff.C90_smaller",
    "MieDiff.C90_batch",
    "MieDiff.C90_model",
    "MieDiff.C90_model_cross",
    "MieDiff.C90_special_values",
    "MieDiff.C90_abs"
   ],
   "note": "false as stated: C90_zeta, C90_coefficients, C90_cross, C90_smaller and C90_batch prove the failure, C90_model that the program with infinities and nan is the model of C78 as long as nothing overflows. The logarithmic derivatives and H_a, H_b are computed without range check. A positive statement (no overflow for given sizes) is not proved here."
  },
  {
   "property": "C91",
   "status": "proved",
   "theorems": [
    "MieDiff.C91_core_coef",
    "MieDiff.C91_film_coef",
    "MieDiff.C91_core_exact",
    "MieDiff.C91_core",
    "MieDiff.C91_film_exact",
    "MieDiff.C91_coating"
   ],
   "note": "C91_core_coef and C91_film_coef are about the interface problem for any number of layers; C91_core_exact and C91_film_exact about any call that solves it; C91_core and C91_coating about torch and scipy calls, with cross sections and efficiencies."
  },
  {
   "property": "C92",
   "status": "proved",
   "theorems": [
    "MieDiff.C92_conductor",
    "MieDiff.C92_coef",
    "MieDiff.C92_exact",
    "MieDiff.C92_calls",
    "MieDiff.C92_interior",
    "MieDiff.C92_dielectric"
   ],
   "note": "The perfectly conducting sphere is specified by its boundary condition (Spec/Conductor.lean); C92_conductor: its coefficients exist, are unique and lossless. C92_coef is about the interface problem, C92_exact about any call that solves it, C92_calls about torch and scipy calls with cross sections; C92_interior compares two interiors; C92_dielectric shows that the condition on the permittivity is needed."
  },
  {
   "property": "C93",
   "status": "proved",
   "theorems": [
    "MieDiff.C93_reversal",
    "MieDiff.C93_lasing",
    "MieDiff.C93_exact",
    "MieDiff.C93_channel",
    "MieDiff.C93_gain",
    "MieDiff.C93_absorber"
   ],
   "note": "C93_reversal and C93_lasing are about the interface problem, C93_exact about any two calls that solve it, C93_gain about cross sections. C93_absorber proves that perfect absorbers with Im eps > 0 exist for every multipole."
  },
  {
   "property": "C94",
   "status": "proved",
   "theorems": [
    "MieDiff.C94_difference",
    "MieDiff.C94_gradient",
    "MieDiff.C94_radius",
    "MieDiff.C94_gradient_run",
    "MieDiff.C94_radius_run",
    "MieDiff.C94_extinction",
    "MieDiff.C94_torch",
    "MieDiff.C94_backward"
   ],
   "note": "C94_difference, C94_gradient and C94_radius are about the interface problem, C94_gradient_run, C94_radius_run and C94_extinction about calls of any backend that solve it near the particle. C94_torch is end to end for core-shell particles. The waves ChannelWaves are those whose fields nearfields returns (C75)."
  },
  {
   "property": "C95",
   "status": "proved",
   "theorems": [
    "MieDiff.C95_exact_arithmetic",
    "MieDiff.C95_accurate",
    "MieDiff.C95_scipy",
    "MieDiff.C95_small"
   ],
   "note": "C95_exact_arithmetic ties the operation-by-operation program (Model/RoundedShell) to the exact model. C95_scipy needs no condition on denominators. The error bound is not explicit."
  },
  {
   "property": "C96",
   "status": "proved",
   "theorems": [
    "MieDiff.C96_response",
    "MieDiff.C96_phase",
    "MieDiff.C96_strength",
    "MieDiff.C96_radius",
    "MieDiff.C96_run",
    "MieDiff.C96_gradient_run",
    "MieDiff.C96_torch"
   ],
   "note": "Uses C94 (derivative as overlap integral) and the conjugation of C93. C96_phase, C96_run and C96_torch are global in the permittivity, C96_gradient_run and C96_radius are local."
  },
  {
   "property": "C97",
   "status": "proved",
   "theorems": [
    "MieDiff.C97_entries",
    "MieDiff.C97_environment",
    "MieDiff.C97_refused",
    "MieDiff.C97_assertions",
    "MieDiff.C97_matrix",
    "MieDiff.C97_per_particle",
    "MieDiff.C97_current_reading"
   ],
   "note": "Contrasts with C28 (the current reading of legacy arguments). Arrays are functions on indices; dtype promotion is not modelled."
  },
  {
   "property": "C98",
   "status": "proved",
   "theorems": [
    "MieDiff.C98_circle_pena",
    "MieDiff.C98_circle_torch",
    "MieDiff.C98_mirror_pena",
    "MieDiff.C98_mirror_torch",
    "MieDiff.C98_plane_pena",
    "MieDiff.C98_plane_torch",
    "MieDiff.C98_particle_pena",
    "MieDiff.C98_particle_torch",
    "MieDiff.C98_angle"
   ],
   "note": "On the plane x = 0 the program moves the point by 2.2e-15 (helper.transform_xyz_to_spherical), so the reflection x -> -x is exact only off that plane; Spec.direction contains that shift."
  },
  {
   "property": "C99",
   "status": "proved",
   "theorems": [
    "MieDiff.C99_coefficients",
    "MieDiff.C99_cross_sections",
    "MieDiff.C99_lossless",
    "MieDiff.C99_gain",
    "MieDiff.C99_heating",
    "MieDiff.C99_pena",
    "MieDiff.C99_core_shell",
    "MieDiff.C99_depth_limit",
    "MieDiff.C99_heating_pena",
    "MieDiff.C99_heating_core_shell"
   ],
   "note": "In exact arithmetic with exact special functions (or their limit in the recurrence depth); SolverClear excludes the 1e-30 guards."
  },
  {
   "property": "C100",
   "status": "proved",
   "theorems": [
    "MieDiff.C100_forward",
    "MieDiff.C100_f_der",
    "MieDiff.C100_backward_hankel",
    "MieDiff.C100_reuse",
    "MieDiff.C100_near_zero",
    "MieDiff.C100_gradient_at_zero",
    "MieDiff.C100_orders",
    "MieDiff.C100_pena_nmax"
   ],
   "note": "With exact special functions at nonzero arguments; value of j_0 at zero as SciPy returns it."
  },
  {
   "property": "C101",
   "status": "proved",
   "theorems": [
    "MieDiff.C101_coefficients",
    "MieDiff.C101_cross_sections",
    "MieDiff.C101_table",
    "MieDiff.C101_stale"
   ],
   "note": "Casts to single precision left out. One wavenumber per call. The mismatch is a fault of the code, proved as such."
  },
  {
   "property": "C102",
   "status": "proved",
   "theorems": [
    "MieDiff.C102_again",
    "MieDiff.C102_calls",
    "MieDiff.C102_new_wavelength",
    "MieDiff.C102_fixed_wavenumber",
    "MieDiff.C102_retain"
   ],
   "note": "One wavenumber per call; that a freed graph cannot be passed again is PyTorch behaviour, part of the trusted base. A fault of the code, proved as such."
  },
  {
   "property": "C103",
   "status": "proved",
   "theorems": [
    "MieDiff.C103_points",
    "MieDiff.C103_scale",
    "MieDiff.C103_number",
    "MieDiff.C103_result",
    "MieDiff.C103_inside",
    "MieDiff.C103_environment",
    "MieDiff.C103_total",
    "MieDiff.C103_scalar",
    "MieDiff.C103_empty"
   ],
   "note": "scipy's Halton sequence is modelled by its definition; torchgdm's solver and its grid of positions on a sphere are parameters."
  },
  {
   "property": "C104",
   "status": "proved",
   "theorems": [
    "MieDiff.C104_center",
    "MieDiff.C104_refused",
    "MieDiff.C104_loose",
    "MieDiff.C104_device",
    "MieDiff.C104_error"
   ],
   "note": "the extraction is a parameter (C103 is about it); torchgdm's base class is not modelled beyond the arguments it receives."
  },
  {
   "property": "C105",
   "status": "proved",
   "theorems": [
    "MieDiff.C105_absorption",
    "MieDiff.C105_torch"
   ],
   "note": "real arithmetic and exact special functions; the general form takes the exactness of the calls near the given permittivity as a hypothesis, the torch form proves it."
  },
  {
   "property": "C106",
   "status": "proved",
   "theorems": [
    "MieDiff.C106_dilute",
    "MieDiff.C106_near_pena",
    "MieDiff.C106_near_shell",
    "MieDiff.C106_near",
    "MieDiff.C106_coefficients",
    "MieDiff.C106_cross_sections",
    "MieDiff.C106_pena",
    "MieDiff.C106_shell"
   ],
   "note": "real arithmetic; for the recorded runs the conditions of C79 (no guard fires) and C81."
  },
  {
   "property": "C107",
   "status": "proved",
   "theorems": [
    "MieDiff.C107_gradient",
    "MieDiff.C107_wavenumber",
    "MieDiff.C107_host",
    "MieDiff.C107_wavenumber_run",
    "MieDiff.C107_host_run",
    "MieDiff.C107_torch"
   ],
   "note": "real arithmetic and exact special functions; materials without dispersion (C101 adds it). The general form takes the exactness of the calls as a hypothesis, the torch form proves it."
  },
  {
   "property": "C108",
   "status": "proved",
   "theorems": [
    "MieDiff.C108_structure",
    "MieDiff.C108_warnings",
    "MieDiff.C108_sound",
    "MieDiff.C108_not_a_ratio",
    "MieDiff.C108_host",
    "MieDiff.C108_refused",
    "MieDiff.C108_scalar"
   ],
   "note": "a warning is a call of warnings.warn; torchgdm's base class is represented by the arguments it receives. The statement describes the code where the documentation differs (ratio to the dipole, n_env)."
  },
  {
   "property": "C109",
   "status": "proved",
   "theorems": [
    "MieDiff.C109_values",
    "MieDiff.C109_only",
    "MieDiff.C109_tracked",
    "MieDiff.C109_errors"
   ],
   "note": "the array shares memory with the tensor in torch; the model has no in-place operations on it"
  },
  {
   "property": "C110",
   "status": "partial",
   "theorems": [
    "MieDiff.C110_fails_partial"
   ],
   "note": "false: both methods always raise ModuleNotFoundError before anything is evaluated (C110_fails_partial); the list of modules of the package is part of the model"
  },
  {
   "property": "C111",
   "status": "partial",
   "theorems": [
    "MieDiff.C111_fails_partial",
    "MieDiff.C111_available"
   ],
   "note": "false: without torchgdm every instantiation returns an exception object (C111_fails_partial); with torchgdm the classes behave as their constructors (C111_available)"
  },
  {
   "property": "C112",
   "status": "proved",
   "theorems": [
    "MieDiff.C112_unknown",
    "MieDiff.C112_case",
    "MieDiff.C112_file",
    "MieDiff.C112_first",
    "MieDiff.C112_refused",
    "MieDiff.C112_table",
    "MieDiff.C112_formula",
    "MieDiff.C112_lookup",
    "MieDiff.C112_lookup_error",
    "MieDiff.C112_formula_refused",
    "MieDiff.C112_session",
    "MieDiff.C112_shipped"
   ],
   "note": "yaml parsing is not modelled: a file is the list of its entries; the shipped files are assumed to hold the texts in Model/Tables"
  },
  {
   "property": "C113",
   "status": "partial",
   "theorems": [
    "MieDiff.C113_hollow_partial",
    "MieDiff.C113_formula_partial",
    "MieDiff.C113_usable",
    "MieDiff.C113_unrounded_partial"
   ],
   "note": "false: MatDatabase() returns an object whose every use is an AttributeError (C113_hollow_partial), a formula other than 1 is accepted but every permittivity is a ValueError (C113_formula_partial), and a lookup wavelength that is not a float32 number is stored under a key that is never found (C113_unrounded_partial). Tables and complete Sellmeier formulas work (C113_usable)"
  },
  {
   "property": "C114",
   "status": "proved",
   "theorems": [
    "MieDiff.C114_material",
    "MieDiff.C114_layers",
    "MieDiff.C114_solvable",
    "MieDiff.C114_absorption"
   ],
   "note": "complex64 rounding is assumed to keep passive values passive (true for rounding with a relative error, relative_passive); exact special functions, scipy backend only for the cross sections"
  },
  {
   "property": "C115",
   "status": "proved",
   "theorems": [
    "MieDiff.C115_table",
    "MieDiff.C115_continuous",
    "MieDiff.C115_pattern",
    "MieDiff.C115_material",
    "MieDiff.C115_spectrum",
    "MieDiff.C115_spectrum_pattern"
   ],
   "note": "exact numbers (the rounding to float32 and complex64 is itself a step function) and exact special functions, scipy backend"
  },
  {
   "property": "C116",
   "status": "proved",
   "theorems": [
    "MieDiff.C116_dense",
    "MieDiff.C116_grid",
    "MieDiff.C116_spectrum",
    "MieDiff.C116_quadratic",
    "MieDiff.C116_rate"
   ],
   "note": "exact numbers and exact special functions, scipy backend; the required spacing and the constant of the quadratic error exist but are not given as formulas"
  },
  {
   "property": "C117",
   "status": "proved",
   "theorems": [
    "MieDiff.C117_jump",
    "MieDiff.C117_ratio",
    "MieDiff.C117_size",
    "MieDiff.C117_wrong"
   ],
   "note": "exact numbers, one argument at a time; the jump of sph_jn_torch at 11/2 is about 1e-23 and invisible in double precision, the one of sph_jn_torch_via_rec is visible"
  }
 ]
}