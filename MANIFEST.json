{
 "claims": [
  {
   "property": "C01",
   "status": "proved",
   "theorems": [
    "Verif.Strings.C01_splitString",
    "Verif.Strings.C01_tokenisation_unique",
    "Verif.Strings.C01_consequences",
    "Verif.Strings.C01_join_split"
   ],
   "note": "Independent inductive specification Tok; existence, uniqueness and consequences."
  },
  {
   "property": "C02",
   "status": "proved",
   "theorems": [
    "Verif.Strings.C02_equivalence",
    "Verif.Strings.C02_overloads_agree"
   ],
   "note": "ASCII tolower (C locale)."
  },
  {
   "property": "C03",
   "status": "proved",
   "theorems": [
    "Verif.Config.C03_map_refinement",
    "Verif.Config.C03_pop_value",
    "Verif.Config.C03_empty_key",
    "Verif.Config.C03_set_in_place",
    "Verif.Config.C03_set_appends"
   ],
   "note": "Refinement to an abstract map keyed by the lower-cased name."
  },
  {
   "property": "C04",
   "status": "proved",
   "theorems": [
    "Verif.Config.C04_duplicates_rejected",
    "Verif.Config.C04_preserved",
    "Verif.Config.C04_comment_verbatim",
    "Verif.Config.C04_pair_normalised"
   ],
   "note": ""
  },
  {
   "property": "C05",
   "status": "proved",
   "theorems": [
    "Verif.Config.C05_getStringAlt",
    "Verif.Config.C05_popStringAlt"
   ],
   "note": ""
  },
  {
   "property": "C06",
   "status": "proved",
   "theorems": [
    "Verif.Config.C06_round_trip",
    "Verif.Config.C06_same_values",
    "Verif.Config.C06_blank_value_changed",
    "Verif.Config.C06_bad_key_changed"
   ],
   "note": "Well-formedness of keys/values passed to set() is spelled out as GoodKey/GoodValue and shown necessary by examples."
  },
  {
   "property": "C07",
   "status": "proved",
   "theorems": [
    "Verif.Config.C07_memory_safe",
    "Verif.Config.C07_sections",
    "Verif.Config.C07_header",
    "Verif.Config.C07_lines"
   ],
   "note": ""
  },
  {
   "property": "C08",
   "status": "partial",
   "theorems": [
    "Verif.Config.C08_written_iff",
    "Verif.Config.C08_untouched",
    "Verif.Config.C08_flagging",
    "Verif.Config.C08_round_trip_partial",
    "Verif.Config.C08_values_preserved_partial",
    "Verif.Config.C08_second_save_identical",
    "Verif.Config.C08_refuted_nameless",
    "Verif.Config.C08_empty_section_lost"
   ],
   "note": "Round trip proved for all reachable states in which the nameless section, if any, is the first one; empty sections are lost and a nameless section created later is merged into its predecessor (proved counterexamples)."
  },
  {
   "property": "C09",
   "status": "proved",
   "theorems": [
    "Verif.Strings.C09_toBool",
    "Verif.Strings.C09_toInt"
   ],
   "note": "strtod is a parameter of the model."
  },
  {
   "property": "C10",
   "status": "partial",
   "theorems": [
    "Verif.Strings.C10_exact_width_partial",
    "Verif.Strings.C10_refuted_31",
    "Verif.Strings.C10_uninitialised_read",
    "Verif.Strings.C10_refuted_wide"
   ],
   "note": "Proved for width<=30; false of the code for width 31 (30 characters, and reads an unwritten byte) and for wider requests (clamped)."
  },
  {
   "property": "C11",
   "status": "partial",
   "theorems": [
    "Verif.BinSearch.C11_safe",
    "Verif.BinSearch.C11_bin_of_guess",
    "Verif.BinSearch.C11_bin_unique",
    "Verif.BinSearch.C11_guess_in_range",
    "Verif.BinSearch.C11_binSearch_partial",
    "Verif.BinSearch.C11_refuted_rounding"
   ],
   "note": "Memory safety for all inputs; correct bin in exact arithmetic; with rounding the documented result fails when the initial guess rounds to the last node (counterexample proved)."
  },
  {
   "property": "C12",
   "status": "partial",
   "theorems": [
    "Verif.Core.C12_pow_partial",
    "Verif.Core.C12_refuted_intmin",
    "Verif.Core.C12_pow_shortcuts"
   ],
   "note": "All exponents except INT_MIN, for which the loop is proved not to terminate."
  },
  {
   "property": "C13",
   "status": "proved",
   "theorems": [
    "Verif.Core.C13_wrapAngle",
    "Verif.Core.C13_wrapAngle_range_any_rounding",
    "Verif.Core.C13_unwrapAngle"
   ],
   "note": "Range holds for any rounding of the quotient; congruence in exact arithmetic."
  },
  {
   "property": "C14",
   "status": "proved",
   "theorems": [
    "Verif.Core.C14_averager"
   ],
   "note": "Exact arithmetic; disp() divides by N-1 although the header says 1/N."
  },
  {
   "property": "C15",
   "status": "proved",
   "theorems": [
    "Verif.Core.C15_linear",
    "Verif.Core.C15_quadratic"
   ],
   "note": "Exact arithmetic."
  },
  {
   "property": "C16",
   "status": "partial",
   "theorems": [
    "Verif.FindRoot.C16_bracket",
    "Verif.FindRoot.C16_nan_iff",
    "Verif.FindRoot.C16_inside_only",
    "Verif.FindRoot.C16_accuracy_partial",
    "Verif.FindRoot.C16_refuted_both_ends",
    "Verif.FindRoot.C16_refuted_newton"
   ],
   "note": "Exact arithmetic. Bracketing, termination, NaN condition and locality proved for all functions; accuracy proved for functions without derivatives; refuted for functions with derivatives (Newton exit) and when both end values are zero (midpoint returned)."
  },
  {
   "property": "C17",
   "status": "proved",
   "theorems": [
    "Verif.Scaling.C17_inf",
    "Verif.Scaling.C17_semi_plus",
    "Verif.Scaling.C17_semi_minus",
    "Verif.Scaling.C17_semi_num",
    "Verif.Scaling.C17_double_half",
    "Verif.Scaling.C17_double_odd",
    "Verif.Scaling.C17_double_deriv",
    "Verif.Scaling.C17_double_mono",
    "Verif.Scaling.C17_double_inverse",
    "Verif.Scaling.C17_lin",
    "Verif.Scaling.C17_cub",
    "Verif.Scaling.C17_qui",
    "Verif.Scaling.C17_integral",
    "Verif.Scaling.C17_cub_scale",
    "Verif.Scaling.C17_cub_scale'"
   ],
   "note": "Exact arithmetic, 0<s<1 for infinite intervals. scale() of the cubic transformation (a fixed rational formula and two or three Newton steps) inverts unscale() up to 1e-13 relative. The Halley iterations used by scale() of the quintic and the Newton iterations of the (u0>0) doubly-infinite transformations are not covered."
  },
  {
   "property": "C18",
   "status": "partial",
   "theorems": [
    "Verif.Core.C18_interp_ends",
    "Verif.Core.C18_interp_slopes",
    "Verif.Core.C18_interp_cubic",
    "Verif.Core.C18_linear",
    "Verif.Core.C18_derivs_partial",
    "Verif.Core.C18_refuted_equidistant"
   ],
   "note": "Exact arithmetic; the third derivative is NaN for equidistant nodes (refutation proved)."
  },
  {
   "property": "C19",
   "status": "partial",
   "theorems": [
    "Verif.Random.C19_range_partial",
    "Verif.Random.C19_refuted",
    "Verif.Random.C19_refuted_any_seed",
    "Verif.Random.C19_refuted_user_state",
    "Verif.Random.roundToDouble_nearest"
   ],
   "note": "The documented half-open range is false of the code: the value 1 is returned for 1024 of the 2^64 words, from every seed. Proved: closed interval, exact condition for 1, and the negation."
  },
  {
   "property": "C20",
   "status": "proved",
   "theorems": [
    "Verif.Random.C20_jump_is_2pow64_steps",
    "Verif.Random.C20_full_period",
    "Verif.Random.C20_initial_state_nonzero",
    "Verif.Random.C20_streams_disjoint"
   ],
   "note": "About the states assigned by randomize(); see C21 for how random() uses them."
  },
  {
   "property": "C21",
   "status": "partial",
   "theorems": [
    "Verif.Random.C21_refuted",
    "Verif.Random.C21_interference_witness",
    "Verif.Random.C21_interference_generic",
    "Verif.Random.C21_single_thread_partial",
    "Verif.Random.C21_repaired_private"
   ],
   "note": "False of the code for two or more threads (missing factor 2 in the index of the thread's state); negation proved with the default seed, single-thread case proved, and the property proved for the corrected index."
  },
  {
   "property": "C22",
   "status": "proved",
   "theorems": [
    "Verif.Random.C22_permutation",
    "Verif.Random.C22_draws_determined"
   ],
   "note": "Random stream is arbitrary."
  },
  {
   "property": "C23",
   "status": "proved",
   "theorems": [
    "Verif.Random.C23_unit_vector",
    "Verif.Random.C23_perp_vector",
    "Verif.Random.C23_rotation"
   ],
   "note": "Exact arithmetic (real numbers)."
  },
  {
   "property": "C24",
   "status": "proved",
   "theorems": [
    "Verif.Random.C24_value",
    "Verif.Random.C24_range",
    "Verif.Random.C24_injective",
    "Verif.Random.C24_bad_base"
   ],
   "note": "Exact arithmetic (rationals); base 0 and 1 are not rejected by the code."
  },
  {
   "property": "C25",
   "status": "proved",
   "theorems": [
    "Verif.Random.C25_hash_one_word",
    "Verif.Random.C25_hash_seed"
   ],
   "note": "Exact 64-bit arithmetic."
  },
  {
   "property": "C26",
   "status": "proved",
   "theorems": [
    "Verif.SphHarm.C26_decode",
    "Verif.SphHarm.C26_encode",
    "Verif.SphHarm.C26_injective",
    "Verif.SphHarm.index_l_rounding"
   ],
   "note": "Unbounded integers; the truncated square root is exact for 32-bit integers under any sane rounding (proved)."
  },
  {
   "property": "C27",
   "status": "proved",
   "theorems": [
    "Verif.SphHarm.C27_reflections",
    "Verif.SphHarm.C27_accepts",
    "Verif.SphHarm.C27_refuted_zrotation"
   ],
   "note": "The harmonics are those computed by sphHarmArray. The z-rotation flag is not enforced by the constructor for mmax>0, contrary to the header's table (proved)."
  },
  {
   "property": "C28",
   "status": "proved",
   "theorems": [
    "Verif.SphHarm.C28_no_loss",
    "Verif.SphHarm.C28_tight",
    "Verif.SphHarm.C28_rejects"
   ],
   "note": "All arrays of coefficients."
  },
  {
   "property": "C29",
   "status": "proved",
   "theorems": [
    "Verif.Fourier.C29_multiAngle",
    "Verif.Fourier.C29_with_sines",
    "Verif.Fourier.C29_cosines_only",
    "Verif.Fourier.C29_coefficients"
   ],
   "note": "Exact arithmetic."
  },
  {
   "property": "C30",
   "status": "partial",
   "theorems": [
    "Verif.SharedPtr.C30_deleted_iff_unowned_partial",
    "Verif.SharedPtr.C30_counts_partial",
    "Verif.SharedPtr.C30_no_leak_partial",
    "Verif.SharedPtr.assign_var_valid",
    "Verif.SharedPtr.C30_refuted_self_owned",
    "Verif.SharedPtr.C30_refuted_reset_alias"
   ],
   "note": "proved for all histories except assignments that destroy their own target (a member pointer that is the sole owner of its object): there the code writes to a destroyed pointer (proved refutation); reset() on an aliasing pointer with null address keeps the ownership (proved)"
  },
  {
   "property": "C31",
   "status": "proved",
   "theorems": [
    "Verif.CtrlBreak.C31_handler_restored",
    "Verif.CtrlBreak.C31_triggered_iff",
    "Verif.CtrlBreak.C31_outside_frozen",
    "Verif.CtrlBreak.C31_no_assert"
   ],
   "note": "all histories of constructor/destructor steps with interrupts between any two of them; vector push_back assumed not to throw"
  },
  {
   "property": "C32",
   "status": "partial",
   "theorems": [
    "Verif.Band.C32_index_bound",
    "Verif.Band.C32_store_read",
    "Verif.Band.C32_values",
    "Verif.Band.C32_size",
    "Verif.Band.C32_elem_partial",
    "Verif.Band.C32_refuted_small"
   ],
   "note": "everything for all sizes and bands, except that elem() is only right if size >= 2*band; for smaller matrices it reports positions outside of the matrix (counterexample proved)"
  },
  {
   "property": "C33",
   "status": "proved",
   "theorems": [
    "Verif.Band.C33_dgemv",
    "Verif.Band.C33_daxpy",
    "Verif.Band.C33_dmul"
   ],
   "note": "exact arithmetic in any field, all sizes and bands"
  },
  {
   "property": "C34",
   "status": "proved",
   "theorems": [
    "Verif.Band.C34_solveBand",
    "Verif.Band.C34_unique",
    "Verif.Band.C34_corners_unused",
    "Verif.Band.C34_posdef",
    "Verif.Band.C34_index_bounds"
   ],
   "note": "exact arithmetic; the no-zero-pivot condition is stated as nonvanishing leading minors and derived for positive definite matrices"
  },
  {
   "property": "C35",
   "status": "proved",
   "theorems": [
    "Verif.GridGen.C35_uniform",
    "Verif.GridGen.C35_exp",
    "Verif.GridGen.C35_nonuniform",
    "Verif.GridGen.C35_bracket"
   ],
   "note": "exact real arithmetic; NaN parameters (which the code does not reject) are not represented; nonuniform grid for an arbitrary result of the root finder"
  },
  {
   "property": "C36",
   "status": "proved",
   "theorems": [
    "Verif.GridGen.C36_mirror",
    "Verif.GridGen.C36_symmetric_even",
    "Verif.GridGen.C36_symmetric",
    "Verif.GridGen.C36_symmetric_infinite"
   ],
   "note": "all grids"
  },
  {
   "property": "C37",
   "status": "proved",
   "theorems": [
    "Verif.BSpline.C37_partition_of_unity",
    "Verif.BSpline.C37_convex_hull"
   ],
   "note": "every degree, grid, segment and point, exact real arithmetic"
  },
  {
   "property": "C38",
   "status": "proved",
   "theorems": [
    "Verif.GL.C38_table",
    "Verif.GL.C38_refuted_zero"
   ],
   "note": "N>=1 (N=0 is undefined behaviour in the code, shown)"
  },
  {
   "property": "C39",
   "status": "partial",
   "theorems": [
    "Verif.Core.C39_nonzero_partial",
    "Verif.Core.C39_second_zero_partial",
    "Verif.Core.C39_refuted_first_zero",
    "Verif.Core.C39_nan"
   ],
   "note": "The sign is reversed when the first argument is zero (negation proved)."
  },
  {
   "property": "C40",
   "status": "proved",
   "theorems": [
    "Verif.Units.C40_grav_unity",
    "Verif.Units.C40_factors",
    "Verif.Units.C40_invariance",
    "Verif.Units.C40_external",
    "Verif.Units.C40_external_trivial"
   ],
   "note": "exact real arithmetic; all 16 units"
  },
  {
   "property": "C41",
   "status": "partial",
   "theorems": [
    "Verif.Random.C41_nonzero_state_stays_nonzero",
    "Verif.Random.C41_hash_can_be_degenerate"
   ],
   "note": "The property is false of the code: hash() may return 0, from which the generator never escapes; proved for nonzero states."
  },
  {
   "property": "C42",
   "status": "proved",
   "theorems": [
    "Verif.Strings.C42_endsWithStr"
   ],
   "note": ""
  },
  {
   "property": "C43",
   "status": "proved",
   "theorems": [
    "Verif.Strings.C43_demangle_identity",
    "Verif.Strings.C43_demangle_compositional",
    "Verif.Strings.C43_demangle_identifier"
   ],
   "note": "The library demangler is an arbitrary parameter."
  },
  {
   "property": "C44",
   "status": "proved",
   "theorems": [
    "Verif.Core.C44_cubic",
    "Verif.Core.C44_degenerate",
    "Verif.Core.C44_sorting",
    "Verif.Core.C44_polish_halley",
    "Verif.Core.C44_polish_moves"
   ],
   "note": "Exact arithmetic."
  },
  {
   "property": "C45",
   "status": "partial",
   "theorems": [
    "Verif.Adapters.C45_product",
    "Verif.Adapters.C45_shifted",
    "Verif.Adapters.C45_loglog_partial",
    "Verif.Adapters.C45_refuted_loglog",
    "Verif.Adapters.C45_scaled",
    "Verif.Adapters.C45_monomial",
    "Verif.Adapters.C45_monomial_integral",
    "Verif.Adapters.C45_gaussian",
    "Verif.Adapters.C45_gaussian_integral"
   ],
   "note": "The second derivative of the log-log adapter is wrong (zero) whenever the second derivative of the function is zero: refutation proved for f(x)=x+1. Even Gaussian moments (error function) not modelled."
  },
  {
   "property": "C46",
   "status": "partial",
   "theorems": [
    "Verif.FindMin.C46_findMin_partial",
    "Verif.FindMin.C46_refuted_nan"
   ],
   "note": "The GSL minimizer is an arbitrary procedure subject to a contract. NaN is returned for finite functions when the bracketing stage shrinks the interval below the tolerance (refutation proved)."
  },
  {
   "property": "C47",
   "status": "partial",
   "theorems": [
    "Verif.FindMin.C47_posneg_partial",
    "Verif.FindMin.C47_refuted_origin",
    "Verif.FindMin.C47_refuted_minimum",
    "Verif.FindMin.C47_nearest_root",
    "Verif.FindMin.C47_refuted_between",
    "Verif.FindMin.C47_posneg_concave_partial",
    "Verif.FindMin.C47_refuted_concave"
   ],
   "note": "Sign claim proved for nonzero slope and favourable curvature; refuted at x0=f(x0)=0 and at a minimum; dxBetweenRoots is half of the distance (proved)."
  },
  {
   "property": "C48",
   "status": "proved",
   "theorems": [
    "Verif.SphHarm.C48_derivatives",
    "Verif.SphHarm.C48_parity"
   ],
   "note": "Exact arithmetic; tabulated constants replaced by their formula; angles with 0 < sin(theta) < 1e-8 (asymptotic branch) excluded for m<=2."
  },
  {
   "property": "C49",
   "status": "proved",
   "theorems": [
    "Verif.SphHarm.C49_azimuthal",
    "Verif.SphHarm.C49_accepts"
   ],
   "note": "All flag sets."
  },
  {
   "property": "C50",
   "status": "proved",
   "theorems": [
    "Verif.BSpline.C50_derivative",
    "Verif.BSpline.C50_derivs_sum_zero",
    "Verif.BSpline.C50_continuity"
   ],
   "note": "every degree and order, exact real arithmetic"
  },
  {
   "property": "C51",
   "status": "proved",
   "theorems": [
    "Verif.BSpline.C51_naturalCubic",
    "Verif.BSpline.C51_sum",
    "Verif.BSpline.C51_nonneg",
    "Verif.BSpline.C51_second_derivative_ends",
    "Verif.BSpline.C51_continuity",
    "Verif.BSpline.C51_extrapolation",
    "Verif.BSpline.C51_derivative"
   ],
   "note": "every grid size, including 2 and 3"
  },
  {
   "property": "C52",
   "status": "proved",
   "theorems": [
    "Verif.GL.C52_integrateGL"
   ],
   "note": "all 23 tabulated rules (whole table checked by the kernel), decimal literals as written, exact arithmetic otherwise"
  },
  {
   "property": "C53",
   "status": "partial",
   "theorems": [
    "Verif.GL.C53_values",
    "Verif.GL.C53_fixed_point",
    "Verif.GL.C53_middle",
    "Verif.GL.C53_quadrature",
    "Verif.GL.rule_exists",
    "Verif.GL.C53_refuted_overflow"
   ],
   "note": "exactness is proved for the limit point of the iteration (zero correction); convergence of the iteration and the size of the last correction are not; for N>1290 the code overflows (shown)"
  },
  {
   "property": "C54",
   "status": "proved",
   "theorems": [
    "Verif.Coord.C54_car_cyl_car",
    "Verif.Coord.C54_car_sph_car",
    "Verif.Coord.C54_cyl_sph_cyl",
    "Verif.Coord.C54_cyl_car_cyl",
    "Verif.Coord.C54_cyl_car_cyl_mod",
    "Verif.Coord.C54_sph_car_sph",
    "Verif.Coord.C54_sph_cyl_sph",
    "Verif.Coord.C54_triangle_sph",
    "Verif.Coord.C54_triangle_car",
    "Verif.Coord.C54_triangle_cyl",
    "Verif.Coord.C54_ranges",
    "Verif.Coord.C54_distances"
   ],
   "note": "exact real arithmetic; off the axis for round trips that start from angles"
  },
  {
   "property": "C55",
   "status": "proved",
   "theorems": [
    "Verif.Coord.C55_car_cyl_car",
    "Verif.Coord.C55_car_sph_car",
    "Verif.Coord.C55_cyl_sph_cyl",
    "Verif.Coord.C55_cyl_sph_cyl_origin",
    "Verif.Coord.C55_cyl_car_cyl",
    "Verif.Coord.C55_sph_cyl_sph",
    "Verif.Coord.C55_triangle_sph",
    "Verif.Coord.C55_pos_part",
    "Verif.Coord.C55_speed",
    "Verif.Coord.C55_Lz",
    "Verif.Coord.C55_Ltotal",
    "Verif.Coord.C55_velocity_cyl_car",
    "Verif.Coord.C55_velocity_sph_cyl",
    "Verif.Coord.C55_velocity_sph_car",
    "Verif.Coord.C55_velocity_car_cyl",
    "Verif.Coord.C55_velocity_cyl_sph",
    "Verif.Coord.C55_momenta",
    "Verif.Coord.C55_origin_vphi_lost",
    "Verif.Coord.C55_origin_theta_range"
   ],
   "note": "exact real arithmetic; at the origin cylindrical->spherical drops vphi and can give theta outside [0,pi] (shown by C55_origin_*)"
  },
  {
   "property": "C56",
   "status": "proved",
   "theorems": [
    "Verif.Coord.C56_car_cyl",
    "Verif.Coord.C56_cyl_car",
    "Verif.Coord.C56_sph_cyl",
    "Verif.Coord.C56_sph_car",
    "Verif.Coord.C56_cyl_sph",
    "Verif.Coord.C56_car_sph",
    "Verif.Coord.C56_position"
   ],
   "note": "exact real arithmetic; the prolate spheroidal and Axi systems are C58, C59"
  },
  {
   "property": "C57",
   "status": "proved",
   "theorems": [
    "Verif.Coord.C57_grad_cyl_car",
    "Verif.Coord.C57_hess_cyl_car",
    "Verif.Coord.C57_grad_sph_car",
    "Verif.Coord.C57_hess_sph_car",
    "Verif.Coord.C57_grad_car_cyl",
    "Verif.Coord.C57_hess_car_cyl",
    "Verif.Coord.C57_grad_car_sph",
    "Verif.Coord.C57_hess_car_sph",
    "Verif.Coord.C57_grad_sph_cyl",
    "Verif.Coord.C57_hess_sph_cyl",
    "Verif.Coord.C57_grad_cyl_sph",
    "Verif.Coord.C57_hess_cyl_sph"
   ],
   "note": "exact real arithmetic; all six pairs of Cartesian/cylindrical/spherical"
  },
  {
   "property": "C58",
   "status": "partial",
   "theorems": [
    "Verif.Coord.Prol.C58_equation",
    "Verif.Coord.Prol.C58_cyl_prol_cyl",
    "Verif.Coord.Prol.C58_prol_cyl_prol",
    "Verif.Coord.Prol.C58_rejects",
    "Verif.Coord.Prol.C58_focal",
    "Verif.Coord.Prol.C58_deriv_cyl_prol",
    "Verif.Coord.Prol.C58_deriv2_cyl_prol",
    "Verif.Coord.Prol.C58_velocity",
    "Verif.Coord.Prol.C58_deriv_prol_cyl",
    "Verif.Coord.Prol.C58_deriv2_prol_cyl_partial",
    "Verif.Coord.Prol.C58_refuted_mixed",
    "Verif.Coord.Prol.C58_grad_prol_cyl",
    "Verif.Coord.Prol.C58_grad_cyl_prol",
    "Verif.Coord.Prol.C58_hess_prol_cyl"
   ],
   "note": "the mixed second derivatives of the map (lambda,nu)->(R,z) returned by the code have the wrong sign (C58_refuted_mixed), so the full property is false; everything else in it is proved in exact real arithmetic"
  },
  {
   "property": "C59",
   "status": "proved",
   "theorems": [
    "Verif.Coord.Axi.C59_cyl_axi_cyl",
    "Verif.Coord.Axi.C59_axi_cyl_axi",
    "Verif.Coord.Axi.C59_disk_mirror",
    "Verif.Coord.Axi.C59_refuted_origin",
    "Verif.Coord.Axi.C59_pos_part",
    "Verif.Coord.Axi.C59_vel_cyl_axi_cyl",
    "Verif.Coord.Axi.C59_vel_axi_cyl_axi",
    "Verif.Coord.Axi.C59_speed",
    "Verif.Coord.Axi.C59_Lz",
    "Verif.Coord.Axi.C59_angular",
    "Verif.Coord.Axi.C59_momenta",
    "Verif.Coord.Axi.C59_origin_velocity",
    "Verif.Coord.Axi.C59_deriv_axi_cyl",
    "Verif.Coord.Axi.C59_deriv2_axi_cyl",
    "Verif.Coord.Axi.C59_deriv_cyl_axi",
    "Verif.Coord.Axi.C59_deriv2_cyl_axi",
    "Verif.Coord.Axi.C59_velocity",
    "Verif.Coord.Axi.C59_grad_axi_cyl",
    "Verif.Coord.Axi.C59_grad_cyl_axi",
    "Verif.Coord.Axi.C59_hess_axi_cyl",
    "Verif.Coord.Axi.C59_hess_cyl_axi"
   ],
   "note": "exact real arithmetic, infinite positions not modelled; at the origin with Delta^2=0 the code returns NaN (C59_refuted_origin) and reverses an ingoing velocity (C59_origin_velocity); derivatives are proved off the axis and off the focal disk"
  },
  {
   "property": "C60",
   "status": "proved",
   "theorems": [
    "Verif.Coord.C60_grad_car",
    "Verif.Coord.C60_hess_car",
    "Verif.Coord.C60_grad_cyl",
    "Verif.Coord.C60_hess_cyl",
    "Verif.Coord.C60_sph",
    "Verif.Coord.C60_grad_car_origin",
    "Verif.Coord.C60_hess_car_origin"
   ],
   "note": "at the origin: Cartesian coordinates only"
  },
  {
   "property": "C61",
   "status": "proved",
   "theorems": [
    "Verif.Coord.C61_euler_sequence",
    "Verif.Coord.C61_isRotation",
    "Verif.Coord.C61_roundtrip_vec",
    "Verif.Coord.C61_roundtrip_pos",
    "Verif.Coord.C61_roundtrip_posvel",
    "Verif.Coord.C61_inverse_angles",
    "Verif.Coord.C61_identity",
    "Verif.Coord.C61_isometry",
    "Verif.Coord.C61_invariants",
    "Verif.Coord.C61_toEuler_ranges",
    "Verif.Coord.C61_toEuler_reconstruct",
    "Verif.Coord.C61_isFaceOn",
    "Verif.Coord.C61_vel2",
    "Verif.Coord.C61_grad_from",
    "Verif.Coord.C61_grad_to",
    "Verif.Coord.C61_hess_from",
    "Verif.Coord.C61_hess_to",
    "Verif.Coord.C61_roundtrip_tensors"
   ],
   "note": "exact real arithmetic"
  },
  {
   "property": "C62",
   "status": "partial",
   "theorems": [
    "Verif.Pot.C62_plummer",
    "Verif.Pot.C62_isochrone",
    "Verif.Pot.C62_nfw_outer",
    "Verif.Pot.C62_nfw_inner",
    "Verif.Pot.nfw_series_error",
    "Verif.Pot.C62_nfw_value",
    "Verif.Pot.C62_sph_car",
    "Verif.Pot.C62_sph_car_origin",
    "Verif.Pot.C62_sph_cyl",
    "Verif.Pot.C62_miyamotoNagai",
    "Verif.Pot.C62_logarithmic",
    "Verif.Pot.C62_harmonic",
    "Verif.Pot.C62_keplerBinary_partial",
    "Verif.Pot.C62_keplerBinary_hess_refuted",
    "Verif.Pot.C62_keplerBinary_potential"
   ],
   "note": "Plummer, isochrone, NFW, Miyamoto-Nagai, logarithmic, harmonic: proved; KeplerBinary: potential and gradient proved, the Hessian has the wrong sign (refuted); further potentials: see C97 (disks), C100 (Dehnen, Ferrers, perfect ellipsoid)"
  },
  {
   "property": "C63",
   "status": "proved",
   "theorems": [
    "Verif.Pot.C63_plummer",
    "Verif.Pot.C63_plummer_point",
    "Verif.Pot.C63_plummer_mass",
    "Verif.Pot.C63_isochrone",
    "Verif.Pot.C63_nfw",
    "Verif.Pot.C63_nfw_inner",
    "Verif.Pot.C63_miyamotoNagai",
    "Verif.Pot.C63_miyamotoNagai_axis",
    "Verif.Pot.trace_sphHess"
   ],
   "note": "Plummer, isochrone, NFW (inner series to stated relative accuracy), Miyamoto-Nagai"
  },
  {
   "property": "C64",
   "status": "partial",
   "theorems": [
    "Verif.Pot.C64_car",
    "Verif.Pot.laplace_cyl",
    "Verif.Pot.C64_cyl",
    "Verif.Pot.laplace_sph",
    "Verif.Pot.C64_sph",
    "Verif.Pot.C64_cyl_axis_value",
    "Verif.Pot.C64_cyl_axis",
    "Verif.Pot.C64_sph_axis",
    "Verif.Pot.C64_sph_origin",
    "Verif.Pot.C64_cyl_axis_refuted"
   ],
   "note": "holds off the z axis in all systems, and on the axis for axisymmetric potentials; refuted on the axis for non-axisymmetric potentials (C64_cyl_axis_refuted)"
  },
  {
   "property": "C65",
   "status": "partial",
   "theorems": [
    "Verif.Pot.meanPhi_ysym",
    "Verif.Pot.C65_exact_phi",
    "Verif.Pot.C65_axisymmetrized",
    "Verif.Pot.C65_axisymmetrized_ok",
    "Verif.Pot.C65_sphericalized",
    "Verif.Pot.kappa_bound",
    "Verif.Pot.quad_moment",
    "Verif.Pot.C65_exact_sphere",
    "Verif.Pot.C65_origin_refuted"
   ],
   "note": "r>0 (R>0 for the derivative claim); radial derivatives carry a factor kappa with |kappa-1|<=1e-16 for r>=1e-80 from the code's guard against division by zero; refuted at the origin (C65_origin_refuted)"
  },
  {
   "property": "C66",
   "status": "partial",
   "theorems": [
    "Verif.Pot.kepler_hasDerivAt",
    "Verif.Pot.exists_solvesKepler",
    "Verif.Pot.C66_barycentre",
    "Verif.Pot.C66_velocity",
    "Verif.Pot.C66_newton",
    "Verif.Pot.sin_taylor3",
    "Verif.Pot.halley_residual",
    "Verif.Pot.C66_solveKepler_partial",
    "Verif.Pot.C66_solveKepler_circular",
    "Verif.Pot.C66_enclosedMass_refuted"
   ],
   "note": "solveKepler: if it returns, the residual is at most 1.2e-15 (ecc <= 1-2e-10); termination of the Halley loop is not proved"
  },
  {
   "property": "C67",
   "status": "proved",
   "theorems": [
    "Verif.Pot.C67_evalComponents",
    "Verif.Pot.C67_composite_car",
    "Verif.Pot.C67_composite_cyl",
    "Verif.Pot.C67_composite_sph",
    "Verif.Pot.C67_ofCar",
    "Verif.Pot.C67_ofCyl",
    "Verif.Pot.C67_ofSph",
    "Verif.Pot.C67_density_sum",
    "Verif.Pot.C67_mass_sum",
    "Verif.Pot.C67_density_many",
    "Verif.Pot.C67_poisson",
    "Verif.Pot.C67_uniformAcc",
    "Verif.Pot.C67_shifted",
    "Verif.Pot.C67_tilted",
    "Verif.Pot.C67_rotating_car",
    "Verif.Pot.C67_rotating_cyl",
    "Verif.Pot.C67_rotating_sph",
    "Verif.Pot.C67_rotating_represents",
    "Verif.Pot.C67_scaled_car",
    "Verif.Pot.C67_scaled_cyl",
    "Verif.Pot.C67_scaled_sph",
    "Verif.Pot.C67_scaled_represents",
    "Verif.Pot.C67_evolving_before",
    "Verif.Pot.C67_evolving_after",
    "Verif.Pot.C67_evolving_linear",
    "Verif.Pot.C67_evolving_nearest",
    "Verif.Pot.C67_evolving_safe",
    "Verif.Pot.C67_evolving_derivs"
   ],
   "note": "derivatives off the z axis for components native to cylindrical/spherical coordinates; exact arithmetic; splines for time-dependent parameters represented by their value"
  },
  {
   "property": "C68",
   "status": "proved",
   "theorems": [
    "Verif.Pot.C68_flag_values",
    "Verif.Pot.C68_composite",
    "Verif.Pot.C68_evolving",
    "Verif.Pot.C68_shifted",
    "Verif.Pot.C68_tilted",
    "Verif.Pot.C68_rotating",
    "Verif.Pot.C68_scaled",
    "Verif.Pot.C68_analytic",
    "Verif.Pot.C68_radial",
    "Verif.Pot.C68_miyamotoNagai",
    "Verif.Pot.C68_keplerBinary",
    "Verif.Pot.C68_tilted_dropped"
   ],
   "note": "flags as natural numbers"
  },
  {
   "property": "C69",
   "status": "proved",
   "theorems": [
    "Verif.Spline.C69_cubic",
    "Verif.Spline.C69_quintic",
    "Verif.Spline.C69_cubic_exact",
    "Verif.Spline.C69_quintic_exact",
    "Verif.Spline.C69_linear"
   ],
   "note": "every grid, data and point, exact real arithmetic"
  },
  {
   "property": "C70",
   "status": "partial",
   "theorems": [
    "Verif.Spline.C70_construct",
    "Verif.Spline.C70_reproduces",
    "Verif.Spline.C70_single",
    "Verif.Spline.C70_refuted_symmetric_clamped"
   ],
   "note": "proved for all grids, values and end conditions, except symmetric data with end slopes that break the symmetry, where the code ignores the left slope (refuted by a witness)"
  },
  {
   "property": "C71",
   "status": "proved",
   "theorems": [
    "Verif.Spline.C71_rising",
    "Verif.Spline.C71_falling",
    "Verif.Spline.C71_monotone",
    "Verif.Spline.C71_untouched"
   ],
   "note": "every grid, data and end condition, exact real arithmetic"
  },
  {
   "property": "C72",
   "status": "proved",
   "theorems": [
    "Verif.Spline.C72_quintic"
   ],
   "note": "every grid, values and slopes, exact real arithmetic"
  },
  {
   "property": "C73",
   "status": "proved",
   "theorems": [
    "Verif.Spline.C73_integrate",
    "Verif.Spline.C73_cubic",
    "Verif.Spline.C73_bspline",
    "Verif.Spline.C73_bspline_unsupported"
   ],
   "note": "(N+n)/2 < 20 (tabulated rules); the fallback for larger powers is covered by C74"
  },
  {
   "property": "C74",
   "status": "partial",
   "theorems": [
    "Verif.Spline.C74_vandermonde",
    "Verif.Spline.C74_convolve",
    "Verif.Spline.C74_product_partial",
    "Verif.Spline.C74_refuted_uninitialised",
    "Verif.Spline.C74_refuted_zero_mean"
   ],
   "note": "coefficients recovered exactly for any degree; the convolution is exact for segments whose weight is not negligible; the product only when the lower limit is in the first segment: otherwise the code reads uninitialised memory (refuted by a witness); a segment whose weight has zero mean is dropped (refuted by a witness)"
  },
  {
   "property": "C75",
   "status": "partial",
   "theorems": [
    "Verif.Spline.C75_roots",
    "Verif.Spline.C75_cubic_exact",
    "Verif.Spline.C75_cubic",
    "Verif.Spline.C75_bspline",
    "Verif.Spline.C75_linear",
    "Verif.Spline.C75_refuted_disjoint",
    "Verif.Spline.C75_refuted_duplicate"
   ],
   "note": "soundness, order and completeness up to the duplicate tolerance (10 eps relative) for any interpolator with exact segment roots, and for the cubic, linear and B-splines; an interval that does not overlap the grid trips an assertion (refuted by a witness); a root at zero on a node is repeated (refuted by a witness)"
  },
  {
   "property": "C76",
   "status": "partial",
   "theorems": [
    "Verif.Spline.C76_bspline",
    "Verif.Spline.C76_interpolate",
    "Verif.Spline.C76_nonzeroComponents",
    "Verif.Spline.C76_addPoint",
    "Verif.Spline.C76_deriv",
    "Verif.Spline.C76_deriv_antideriv",
    "Verif.Spline.C76_antideriv",
    "Verif.Spline.C76_cubicFromAmpl",
    "Verif.Spline.C76_refuted_eval"
   ],
   "note": "all degrees, grids, amplitudes; BsplineInterpolator1d::eval (all basis functions at a point) returns zeros only (refuted)"
  },
  {
   "property": "C77",
   "status": "partial",
   "theorems": [
    "Verif.Spline.C77_extrema",
    "Verif.Spline.C77_cubic",
    "Verif.Spline.C77_quintic",
    "Verif.Spline.C77_bspline",
    "Verif.Spline.C77_linear_partial",
    "Verif.Spline.C77_refuted_endpoint",
    "Verif.Spline.C77_refuted_plateau"
   ],
   "note": "any data, if the stationary points are further apart than the tolerance; linear interpolators only without equal adjacent values and with the upper end not at an interior node, otherwise refuted by witnesses"
  },
  {
   "property": "C78",
   "status": "partial",
   "theorems": [
    "Verif.Core.C78_quartic",
    "Verif.Core.C78_all",
    "Verif.Core.C78_refuted"
   ],
   "note": "exact arithmetic; roots further apart than the tolerance, discriminant of the resolvent not within the tolerance of solveCubic, and zero not a multiple root of the resolvent, when the claim is refuted by a witness (x^4+x^2=0)"
  },
  {
   "property": "C79",
   "status": "proved",
   "theorems": [
    "Verif.Geom.C79_clip",
    "Verif.Geom.C79_winding",
    "Verif.Geom.C79_inside_reverse",
    "Verif.Geom.C79_area",
    "Verif.Geom.C79_reverse",
    "Verif.Geom.C79_clip_integral",
    "Verif.Geom.C79_clip_area"
   ],
   "note": "exact arithmetic; any polygon, including self-intersecting"
  },
  {
   "property": "C80",
   "status": "partial",
   "theorems": [
    "Verif.Geom.C80_integrals"
   ],
   "note": "degrees 0 and 1 (linear B-splines, exact quadratures); for degrees 2 and 3 the code uses rounded or inexact quadrature rules"
  },
  {
   "property": "C81",
   "status": "partial",
   "theorems": [
    "Verif.Orbit.C81_run",
    "Verif.Orbit.C81_callFncs",
    "Verif.Orbit.C81_regular",
    "Verif.Orbit.C81_steps",
    "Verif.Orbit.C81_last",
    "Verif.Orbit.C81_refuted_continue",
    "Verif.Orbit.C81_refuted_index"
   ],
   "note": "the continuation by a second run() is refuted (C81_refuted_continue); regular sampling needs an interval above the roundoff error of time (C81_refuted_index otherwise); runtime functions that reset the orbit by calling init() are not modelled"
  },
  {
   "property": "C82",
   "status": "partial",
   "theorems": [
    "Verif.Orbit.C82_init",
    "Verif.Orbit.C82_car",
    "Verif.Orbit.C82_cyl",
    "Verif.Orbit.C82_sph",
    "Verif.Orbit.C82_normalize_cyl",
    "Verif.Orbit.C82_normalize_sph",
    "Verif.Orbit.C82_jacobi",
    "Verif.Orbit.C82_hermite",
    "Verif.Orbit.C82_accuracyFactor",
    "Verif.Orbit.C82_refuted_cyl",
    "Verif.Orbit.C82_refuted_hermite"
   ],
   "note": "proved in Cartesian coordinates; in cylindrical and spherical ones for regular values of coordinates, or with zero azimuthal velocity and force anywhere; refuted for R<0 with vphi!=0 and for Hermite in time-dependent potentials"
  },
  {
   "property": "C83",
   "status": "partial",
   "theorems": [
    "Verif.Ode.C83_init",
    "Verif.Ode.C83_initTimeStep",
    "Verif.Ode.C83_step_given",
    "Verif.Ode.C83_step_auto",
    "Verif.Ode.C83_step_sign",
    "Verif.Ode.C83_advances",
    "Verif.Ode.C83_dense",
    "Verif.Ode.C83_dense_step",
    "Verif.Ode.C83_order",
    "Verif.Ode.C83_errest",
    "Verif.Ode.C83_dense_order"
   ],
   "note": "the order of accuracy is proved for autonomous systems with an analytic right-hand side, up to the roundoff (<1e-22) of the coefficients of the method printed in the code; non-autonomous systems are not covered by the order theorems; the formula for the estimate of the first step is not modelled except for its final limits"
  },
  {
   "property": "C84",
   "status": "partial",
   "theorems": [
    "Verif.Ode.Hermite.C84_step",
    "Verif.Ode.Hermite.C84_attempts",
    "Verif.Ode.Hermite.C84_dense",
    "Verif.Ode.Hermite.C84_exact",
    "Verif.Ode.Hermite.C84_order",
    "Verif.Ode.Hermite.C84_refuted_continuous",
    "Verif.Ode.Hermite.C84_refuted_init",
    "Verif.Ode.Hermite.C84_refuted_index",
    "Verif.Ode.Hermite.C84_refuted_free"
   ],
   "note": "refuted: continuity of the dense output across steps, getSol after init, the check of the index, the timestep for force-free motion"
  },
  {
   "property": "C85",
   "status": "partial",
   "theorems": [
    "Verif.Ode.GL.C85_init3",
    "Verif.Ode.GL.C85_dense3",
    "Verif.Ode.GL.C85_residual3",
    "Verif.Ode.GL.C85_exact3",
    "Verif.Ode.GL.C85_linear3",
    "Verif.Ode.GL.C85_indep3",
    "Verif.Ode.GL.C85_nodes3",
    "Verif.Ode.GL.C85_init4",
    "Verif.Ode.GL.C85_dense4_partial",
    "Verif.Ode.GL.C85_residual4",
    "Verif.Ode.GL.C85_exact4",
    "Verif.Ode.GL.C85_linear4",
    "Verif.Ode.GL.C85_indep4",
    "Verif.Ode.GL.C85_nodes4",
    "Verif.Ode.GL.C85_refuted_velocity4"
   ],
   "note": "fully proved for GL3; for GL4 the reported velocity is not the derivative of the position inside the step (C85_refuted_velocity4), the rest is proved"
  },
  {
   "property": "C86",
   "status": "proved",
   "theorems": [
    "Verif.Cubature.C86_rule",
    "Verif.Cubature.C86_exact",
    "Verif.Cubature.C86_error"
   ],
   "note": "decimal constants of the code: the relative deviation from exactness is bounded; with exact square roots the rule is exact"
  },
  {
   "property": "C87",
   "status": "proved",
   "theorems": [
    "Verif.Cubature.C87_priority_queue",
    "Verif.Cubature.push_spec",
    "Verif.Cubature.pop_spec"
   ],
   "note": "any history of operations starting from the empty heap"
  },
  {
   "property": "C88",
   "status": "partial",
   "theorems": [
    "Verif.Cubature.C88_result",
    "Verif.Cubature.C88_outcome",
    "Verif.Cubature.C88_success",
    "Verif.Cubature.C88_numEval",
    "Verif.Cubature.C88_refuted_limit",
    "Verif.Cubature.C88_worst_first",
    "Verif.Cubature.C88_inside",
    "Verif.Cubature.C88_scale",
    "Verif.Cubature.C88_refuted_reversed",
    "Verif.Cubature.C88_polynomial"
   ],
   "note": "refuted: the limit on the number of evaluations is not an upper limit (the overshoot is bounded), reversed limits in one dimension suppress the refinement; scale invariance is proved for d other than 1; the variant with the CUBA library is not modelled"
  },
  {
   "property": "C89",
   "status": "proved",
   "theorems": [
    "Verif.Sample.C89_sample",
    "Verif.Sample.C89_inside",
    "Verif.Sample.C89_constant",
    "Verif.Sample.C89_schedule"
   ],
   "note": "real arithmetic; positive number of samples; the schedule permutes whole blocks and cells (no weak-memory effects); the unsynchronized error message is not modelled"
  },
  {
   "property": "C90",
   "status": "partial",
   "theorems": [
    "Verif.Actions.C90_motion",
    "Verif.Actions.C90_frequencies",
    "Verif.Actions.C90_radial_action",
    "Verif.Actions.C90_map_eval_actions",
    "Verif.Actions.C90_map_eval_angles",
    "Verif.Actions.C90_eval_map",
    "Verif.Actions.C90_refuted_polar",
    "Verif.Actions.C90_refuted_unwrapped"
   ],
   "note": "real arithmetic, Kepler's equation solved exactly; proved for all regular actions and angles in the basic interval; the code refutes the property for the radial angle outside [0,2pi) and for zero azimuthal action"
  },
  {
   "property": "C91",
   "status": "partial",
   "theorems": [
    "Verif.DensGrid.C91_constructor",
    "Verif.DensGrid.C91_cells",
    "Verif.DensGrid.C91_cell_names",
    "Verif.DensGrid.C91_elements",
    "Verif.DensGrid.C91_nodes",
    "Verif.DensGrid.C91_continuous",
    "Verif.DensGrid.C91_outside",
    "Verif.DensGrid.C91_refuted_single_shell"
   ],
   "note": "Everything is proved except the last sentence, which is false of the code: a grid with a single shell drops the points exactly at its outer radius (refutation theorem). Real arithmetic."
  },
  {
   "property": "C92",
   "status": "proved",
   "theorems": [
    "Verif.DensGrid.C92_sh_constructor",
    "Verif.DensGrid.C92_sh_elements",
    "Verif.DensGrid.C92_sh_outside",
    "Verif.DensGrid.C92_cyl_constructor",
    "Verif.DensGrid.C92_cyl_cells",
    "Verif.DensGrid.C92_cyl_elements",
    "Verif.DensGrid.C92_cyl_outside"
   ],
   "note": "Real arithmetic; the Legendre functions are those of C48, the trigonometric ones those of C29. On the z axis the azimuthal angle is arbitrary, and the cylindrical scheme is described off the axis."
  },
  {
   "property": "C93",
   "status": "proved",
   "theorems": [
    "Verif.SphHarm.C93_forward",
    "Verif.SphHarm.C93_inverse",
    "Verif.SphHarm.C93_roundtrip",
    "Verif.SphHarm.C93_stride",
    "Verif.SphHarm.C93_nonvacuous",
    "Verif.GL.rule_exists"
   ],
   "note": "Exact arithmetic; the quadrature rule is an argument with the properties of the Gauss-Legendre rule (proved to exist for every order)."
  },
  {
   "property": "C94",
   "status": "proved",
   "theorems": [
    "Verif.DensGrid.C94_classic",
    "Verif.DensGrid.C94_jacobian",
    "Verif.DensGrid.C94_classic_mass",
    "Verif.DensGrid.C94_classic_points",
    "Verif.DensGrid.C94_cyl",
    "Verif.DensGrid.C94_cyl_mass",
    "Verif.DensGrid.C94_cyl_points",
    "Verif.DensGrid.C94_sh",
    "Verif.DensGrid.C94_sh_mass",
    "Verif.DensGrid.C94_sh_points"
   ],
   "note": "Real arithmetic. The one-dimensional tables in the radial and pane coordinates are the literal 19-digit ones; the table in cos(theta) is any exact Gauss-Legendre rule. The convergence of the quadrature to the integral is not part of the claim."
  },
  {
   "property": "C95",
   "status": "partial",
   "theorems": [
    "Verif.Spline.C95_cubic",
    "Verif.Spline.C95_quintic",
    "Verif.Spline.C95_cubic_exact",
    "Verif.Spline.C95_quintic_exact",
    "Verif.Spline.C95_cubic3d",
    "Verif.Spline.C95_cubic3d_exact",
    "Verif.Spline.C95_bilinear",
    "Verif.Spline.C95_bilinear_bounds",
    "Verif.Spline.C95_trilinear",
    "Verif.Spline.C95_refuted_bilinear_mixed"
   ],
   "note": "exact real arithmetic, all grids and node data; the mixed second derivative of the bilinear interpolator is reported as zero (refuted)"
  },
  {
   "property": "C96",
   "status": "proved",
   "theorems": [
    "Verif.Spline.C96_cubic",
    "Verif.Spline.C96_gridlines",
    "Verif.Spline.C96_quintic",
    "Verif.Spline.C96_regularized",
    "Verif.Spline.C96_regularized_falling"
   ],
   "note": "exact real arithmetic"
  },
  {
   "property": "C97",
   "status": "partial",
   "theorems": [
    "Verif.Pot.C97_radial",
    "Verif.Pot.C97_radial_hole",
    "Verif.Pot.C97_refuted_centre",
    "Verif.Pot.C97_vertical",
    "Verif.Pot.C97_vertical_value",
    "Verif.Pot.C97_vertical_thin",
    "Verif.Pot.C97_vertical_plane",
    "Verif.Pot.C97_vertical_outside",
    "Verif.Pot.C97_vertical_norm",
    "Verif.Pot.C97_ansatz",
    "Verif.Pot.C97_ansatz_origin",
    "Verif.Pot.C97_poisson",
    "Verif.Pot.C97_poisson_axis",
    "Verif.Pot.C97_split",
    "Verif.Pot.C97_disk",
    "Verif.Pot.C97_disk_thin",
    "Verif.Pot.C97_disk_origin",
    "Verif.Pot.C97_mass",
    "Verif.Pot.C97_mass_space"
   ],
   "note": "partial because the code refutes part of it: at the centre of a disk without a hole that is not a plain exponential, the derivatives of the radial function are NaN (C97_refuted_centre), and in a layer |z|<1e-5 h (exponential) or 1e-3 h (isothermal) the function H is a truncated series, whose difference from the exact antiderivative is bounded (C97_vertical_value). Everything else is proved for all parameters and points. The special functions (Gamma, Bessel K by its integral representation) and the quadrature for the mass in the generic case are taken as exact"
  },
  {
   "property": "C98",
   "status": "partial",
   "theorems": [
    "Verif.DF.C98_exp_value",
    "Verif.DF.C98_exp_deriv",
    "Verif.DF.C98_dpl_value",
    "Verif.DF.C98_dpl_deriv",
    "Verif.DF.C98_qi_value",
    "Verif.DF.C98_qi_deriv",
    "Verif.DF.C98_refuted_core",
    "Verif.DF.C98_refuted_rot"
   ],
   "note": "partial because the code refutes part of it: the double power law with a core is zero at the origin, and undefined for zero angular momentum if rotation is enabled with the default scale; for 0<q<=1e-7 only non-negativity is proved"
  },
  {
   "property": "C99",
   "status": "proved",
   "theorems": [
    "Verif.DF.C99_triang_there_back",
    "Verif.DF.C99_triang_back_there",
    "Verif.DF.C99_triang_cut",
    "Verif.DF.C99_triang_error",
    "Verif.DF.C99_triang_jacobian",
    "Verif.DF.C99_total_mass",
    "Verif.DF.C99_rect_there_back",
    "Verif.DF.C99_rect_back_there",
    "Verif.DF.C99_rect_jacobian",
    "Verif.DF.C99_composite_separate",
    "Verif.DF.C99_composite_sum"
   ],
   "note": "exact real arithmetic; the numerical cubature itself is C-cubature (other claims); amplitudes outside exp(-48.98)..exp(48.98) are cut off by the code, as stated in the theorem"
  },
  {
   "property": "C100",
   "status": "partial",
   "theorems": [
    "Verif.Pot.FerrersP.C100_ferrers_root",
    "Verif.Pot.FerrersP.C100_ferrers_inside",
    "Verif.Pot.FerrersP.C100_ferrers_outside",
    "Verif.Pot.FerrersP.C100_ferrers_far",
    "Verif.Pot.FerrersP.C100_ferrers_value",
    "Verif.Pot.FerrersP.C100_ferrers_potential",
    "Verif.Pot.FerrersP.C100_ferrers_mass",
    "Verif.Pot.FerrersP.C100_ferrers_far_value",
    "Verif.Pot.DehnenP.C100_dehnen",
    "Verif.Pot.DehnenP.C100_dehnen_value",
    "Verif.Pot.DehnenP.C100_dehnen_axis",
    "Verif.Pot.PerfEll.C100_perfect_ellipsoid",
    "Verif.Pot.PerfEll.C100_perfect_ellipsoid_poisson",
    "Verif.Pot.PerfEll.C100_perfect_ellipsoid_value",
    "Verif.Pot.PerfEll.C100_perfect_ellipsoid_taylor",
    "Verif.Pot.PerfEll.C100_perfect_ellipsoid_taylor_prolate",
    "Verif.Pot.PerfEll.C100_perfect_ellipsoid_focal_poisson",
    "Verif.Pot.PerfEll.C100_perfect_ellipsoid_focal_oblate",
    "Verif.Pot.PerfEll.C100_perfect_ellipsoid_focal_prolate",
    "Verif.Pot.PerfEll.C100_perfect_ellipsoid_sign"
   ],
   "note": "proved for Ferrers (except on the surface m=1 and on the sphere r=10a where the formula is switched; the root of the cubic equation is assumed exact), the spherical Dehnen model (the value at large radii is an expansion with a proved error bound), and the perfect ellipsoid (off the symmetry axis, off the focal disk); refuted for prolate perfect ellipsoids below the plane near the focal ring (wrong sign of the radial force) and for negative axis ratios of Dehnen models; triaxial Dehnen integrals and OblatePerfectEllipsoid are not modelled"
  },
  {
   "property": "C101",
   "status": "partial",
   "theorems": [
    "Verif.IO.C101_text_roundtrip",
    "Verif.IO.C101_nonfinite_particle_lost",
    "Verif.IO.C101_unterminated_line_ignored",
    "Verif.IO.C101_header_injection",
    "Verif.IO.C101_short_file_detection"
   ],
   "note": "round trip proved for all finite particles and one-line headers; partial because the code loses particles with non-finite x, and a header with line breaks adds particles (both proved as refutations); printf/strtod enter as assumptions"
  },
  {
   "property": "C102",
   "status": "partial",
   "theorems": [
    "Verif.IO.Nemo.C102_nemo_file",
    "Verif.IO.Nemo.Decodes.unique",
    "Verif.IO.Nemo.C102_nemo_empty_snapshot_undecodable"
   ],
   "note": "proved for any non-zero number of particles below 2^31; refuted for zero particles"
  },
  {
   "property": "C103",
   "status": "proved",
   "theorems": [
    "Verif.GH.C103_hermite",
    "Verif.GH.C103_hermite_deriv",
    "Verif.GH.C103_ortho",
    "Verif.GH.C103_hermite_norm",
    "Verif.GH.C103_normn",
    "Verif.GH.C103_value",
    "Verif.GH.C103_norm",
    "Verif.GH.C103_project",
    "Verif.GH.C103_moments_sum",
    "Verif.GH.C103_matrix",
    "Verif.GH.C103_fit_interp_value",
    "Verif.GH.C103_fit_interp_deriv",
    "Verif.GH.C103_fit_interp_deriv_higher",
    "Verif.GH.C103_fit_fnc_value",
    "Verif.GH.C103_fit_fnc_deriv",
    "Verif.GH.C103_stationary",
    "Verif.GH.C103_classic_integrand",
    "Verif.GH.C103_classic",
    "Verif.GH.C103_gauss_zeroth",
    "Verif.GH.C103_fitted_zeroth",
    "Verif.GH.C103_fit_higher_order_refuted"
   ],
   "note": "exact real arithmetic; the integration routine and the Levenberg-Marquardt minimiser are not modelled here (the theorems are about what they are given, and about a stationary point); the decimal constants of normn are within 5e-17"
  },
  {
   "property": "C104",
   "status": "proved",
   "theorems": [
    "Verif.FP.C104_step",
    "Verif.FP.C104_nonneg",
    "Verif.FP.C104_equilibrium_flux",
    "Verif.FP.C104_equilibrium",
    "Verif.FP.C104_wminus_pos",
    "Verif.FP.C104_wminus_accuracy",
    "Verif.FP.C104_correction_negative"
   ],
   "note": "exact real arithmetic, finite-difference (Chang-Cooper) method, one component and one step with given coefficients; infinite loss-cone rates, the finite-element methods, the computation of diffusion coefficients and the update of the potential are not modelled; C104_correction_negative shows that the extrapolation term may produce negative values"
  },
  {
   "property": "C105",
   "status": "partial",
   "theorems": [
    "Verif.FP.C105_mass_budget_partial",
    "Verif.FP.C105_lossCone",
    "Verif.FP.C105_recorded",
    "Verif.FP.C105_outer_leak",
    "Verif.FP.C105_correction_mass",
    "Verif.FP.C105_lossCone_mismatch",
    "Verif.FP.C105_no_losscone_throws"
   ],
   "note": "the exact budget is proved; the code does not record the flux through the outer boundary, the correction is not conservative, and the recorded loss-cone mass differs from the actual one (refutations); with the loss cone switched off every step throws"
  },
  {
   "property": "C106",
   "status": "partial",
   "theorems": [
    "Verif.Raga.C106_timestep",
    "Verif.Raga.C106_once",
    "Verif.Raga.C106_capture_iff",
    "Verif.Raga.C106_finish",
    "Verif.Raga.C106_total_mass",
    "Verif.Raga.C106_radius_partial",
    "Verif.Raga.C106_binary_mass_partial",
    "Verif.Raga.C106_radius_binary_refuted",
    "Verif.Raga.C106_radius_coalesced_refuted",
    "Verif.Raga.C106_binary_fraction_refuted"
   ],
   "note": "exact arithmetic, given orbit and root-finder; the capture radii of a binary and the update of its mass ratio with a fraction below 1 are wrong in the code (refuted)"
  },
  {
   "property": "C107",
   "status": "partial",
   "theorems": [
    "Verif.Raga.C107_assertion",
    "Verif.Raga.C107_encounter",
    "Verif.Raga.C107_axisym_partial",
    "Verif.Raga.C107_torque_sign_refuted",
    "Verif.Raga.C107_energy",
    "Verif.Raga.C107_angmom",
    "Verif.Raga.C107_admissible",
    "Verif.Raga.C107_hardening",
    "Verif.Raga.C107_terminates_partial",
    "Verif.Raga.C107_nontermination_refuted",
    "Verif.Raga.C107_sum",
    "Verif.Raga.C107_episode_partial",
    "Verif.Raga.C107_peters",
    "Verif.Raga.C107_coalescence_time"
   ],
   "note": "exact arithmetic; the sign of the stellar torque and termination for an unbound binary are refuted; termination with gravitational waves is not proved"
  },
  {
   "property": "C108",
   "status": "partial",
   "theorems": [
    "Verif.Raga.C108_samples",
    "Verif.Raga.C108_samples_complete",
    "Verif.Raga.C108_mean_energy",
    "Verif.Raga.C108_no_kick",
    "Verif.Raga.C108_eliminate",
    "Verif.Raga.C108_slopes",
    "Verif.Raga.C108_continuous",
    "Verif.Raga.C108_derivatives",
    "Verif.Raga.C108_finite_mass",
    "Verif.Raga.C108_slope_partial",
    "Verif.Raga.C108_slope_refuted",
    "Verif.Raga.C108_energies"
   ],
   "note": "diffusion coefficients, the fitted spline and the generator are given; the limit on the slope of the potential holds only for its estimate (the potential is finite at origin in any case)"
  },
  {
   "property": "C109",
   "status": "proved",
   "theorems": [
    "Verif.Pot.C109_coords",
    "Verif.Pot.C109_symmetry",
    "Verif.Pot.C109_accepts",
    "Verif.Pot.C109_mass",
    "Verif.Pot.C109_infinite",
    "Verif.Pot.C109_cusp",
    "Verif.Pot.C109_monotone",
    "Verif.Pot.C109_slopes"
   ],
   "note": "exact real arithmetic; Gamma function and integrals exact; radii r > 0"
  },
  {
   "property": "C110",
   "status": "partial",
   "theorems": [
    "Verif.Pot.C110_nuker_accepts",
    "Verif.Pot.C110_nuker_mass",
    "Verif.Pot.C110_nuker_deproject",
    "Verif.Pot.C110_nuker_negative_mass",
    "Verif.Pot.C110_nuker_weak_cutoff",
    "Verif.Pot.C110_sersic_mass",
    "Verif.Pot.C110_sersic_half",
    "Verif.Pot.C110_sersic_unique",
    "Verif.Pot.C110_sersic_deproject_partial"
   ],
   "note": "the mass of a Nuker model needs a positive cutoff strength, which is not checked; for Sersic models no bound on the truncated part of the integral and on the bracket of the root is proved; interpolation not modelled"
  },
  {
   "property": "C111",
   "status": "proved",
   "theorems": [
    "Verif.Spline.LogLog.C111_positive",
    "Verif.Spline.LogLog.C111_endSlopes",
    "Verif.Spline.LogLog.C111_powerLaw",
    "Verif.Spline.LogLog.C111_any",
    "Verif.Spline.LogLog.C111_continuous",
    "Verif.Spline.LogLog.C111_refuted_smooth"
   ],
   "note": "exact real arithmetic, positive arguments; C111_refuted_smooth shows that positivity of all values is needed for the derivative to be continuous (constant extrapolation next to a non-positive value, by design)"
  },
  {
   "property": "C112",
   "status": "partial",
   "theorems": [
    "Verif.Spline.LogLog.C112_positive",
    "Verif.Spline.LogLog.C112_powerLaw",
    "Verif.Spline.LogLog.C112_excluded",
    "Verif.Spline.LogLog.C112_refuted_monotone"
   ],
   "note": "everything except monotonicity is proved; monotonicity is refuted (C112_refuted_monotone): the check in the code is the one for cubic interpolation. Values of any sign: C111_any and C111_continuous cover the second constructor as well"
  },
  {
   "property": "C113",
   "status": "partial",
   "theorems": [
    "Verif.Gal.C113_schedule",
    "Verif.Gal.C113_local",
    "Verif.Gal.C113_eddington",
    "Verif.Gal.C113_jeansSph",
    "Verif.Gal.C113_jeansAxi",
    "Verif.Gal.C113_dispersion",
    "Verif.Gal.C113_dispersion_radial",
    "Verif.Gal.C113_jeansSph_bound_partial",
    "Verif.Gal.C113_refuted_bound",
    "Verif.Gal.C113_refuted_gaussian"
   ],
   "note": "Exact arithmetic; generator, velocity sampler and Jeans moments are parameters. Two documented claims are false of the Jeans variants: after 100 unbound draws the last one is kept, and the tangential velocity is not Gaussian (kurtosis 9/2), only its dispersion is right."
  },
  {
   "property": "C114",
   "status": "proved",
   "theorems": [
    "Verif.Gal.C114_normal",
    "Verif.Gal.C114_marginal",
    "Verif.Gal.C114_range"
   ],
   "note": "Exact arithmetic (real numbers), uniform deviates."
  },
  {
   "property": "C115",
   "status": "proved",
   "theorems": [
    "Verif.Pot.King.C115_density",
    "Verif.Pot.King.C115_monotone",
    "Verif.Pot.King.C115_poisson",
    "Verif.Pot.King.C115_truncation",
    "Verif.Pot.King.C115_centre",
    "Verif.Pot.King.C115_table",
    "Verif.Pot.King.C115_model",
    "Verif.Pot.King.C115_refuted_continuous"
   ],
   "note": "Exact arithmetic, exact solution of the ODE and exact roots (parameters). The density as a function of the potential jumps at the threshold between the closed form and the series."
  },
  {
   "property": "C116",
   "status": "partial",
   "theorems": [
    "Verif.Gal.Jeans.C116_nodes",
    "Verif.Gal.Jeans.C116_tail",
    "Verif.Gal.Jeans.C116_jeans",
    "Verif.Gal.Jeans.C116_model",
    "Verif.Gal.Jeans.C116_refuted_negative_density"
   ],
   "note": "Exact arithmetic, exact integrals and derivatives, grid is a parameter. What fails: a node with a negative density and a positive pressure is kept with the escape velocity as its dispersion."
  },
  {
   "property": "C117",
   "status": "partial",
   "theorems": [
    "Verif.Gal.SelfCons.C117_potential",
    "Verif.Gal.SelfCons.C117_potential_exists",
    "Verif.Gal.SelfCons.C117_iteration",
    "Verif.Gal.SelfCons.C117_completes",
    "Verif.Gal.SelfCons.C117_failure",
    "Verif.Gal.SelfCons.C117_order",
    "Verif.Gal.SelfCons.C117_fixed",
    "Verif.Gal.SelfCons.C117_consistent_partial",
    "Verif.Gal.SelfCons.C117_refuted_stale"
   ],
   "note": "Exact arithmetic; the expansions, the action finder and the density of a DF component are parameters (which may fail). What fails: if the action finder cannot be created for the new potential, the model keeps the stale one with the new potential and later iterations use this pair."
  },
  {
   "property": "C118",
   "status": "partial",
   "theorems": [
    "Verif.Pot.PotUtils.C118_scale",
    "Verif.Pot.PotUtils.C118_scale_range",
    "Verif.Pot.PotUtils.C118_unscale",
    "Verif.Pot.PotUtils.C118_deltaE",
    "Verif.Pot.PotUtils.C118_roots",
    "Verif.Pot.PotUtils.C118_powerlaw",
    "Verif.Pot.PotUtils.C118_powerlaw_deriv",
    "Verif.Pot.PotUtils.C118_powerlaw_brackets",
    "Verif.Pot.PotUtils.C118_innerSlope",
    "Verif.Pot.PotUtils.C118_innerSlope_log",
    "Verif.Pot.PotUtils.C118_epicycle",
    "Verif.Pot.PotUtils.C118_epicycle_origin",
    "Verif.Pot.PotUtils.C118_tables",
    "Verif.Pot.PotUtils.C118_extrap_derivs",
    "Verif.Pot.PotUtils.C118_outer_match",
    "Verif.Pot.PotUtils.C118_interp_derivs",
    "Verif.Pot.PotUtils.C118_interp_epicycle"
   ],
   "note": "Exact arithmetic; special cases for infinite values are not modelled; findRoot itself is C16; here the functions whose roots are searched, their derivatives, brackets for power laws, scaling, tables, extrapolation. The 2d table of peri/apocentres (Interpolator2d) is not modelled."
  },
  {
   "property": "C119",
   "status": "partial",
   "theorems": [
    "Verif.Pot.Projected.C119_bijection",
    "Verif.Pot.Projected.C119_density",
    "Verif.Pot.Projected.C119_derivatives",
    "Verif.Pot.Projected.C119_value_partial",
    "Verif.Pot.Projected.C119_value_offset",
    "Verif.Pot.Projected.C119_refuted_value",
    "Verif.Pot.Projected.C119_angles",
    "Verif.Pot.Projected.C119_mirrored"
   ],
   "note": "Exact arithmetic and integrals; fixed moment of time. What fails: the projected potential is measured from the integral along the model's z axis rather than the line of sight (0,0), so it is off by a constant unless the line of sight is the z axis or the potential is spherical."
  },
  {
   "property": "C120",
   "status": "partial",
   "theorems": [
    "Verif.Pot.OblPerf.Obl.C120_G",
    "Verif.Pot.OblPerf.Obl.C120_G_derivs",
    "Verif.Pot.OblPerf.Obl.C120_create",
    "Verif.Pot.OblPerf.Obl.C120_domain",
    "Verif.Pot.OblPerf.Obl.C120_derivatives",
    "Verif.Pot.OblPerf.Obl.C120_G_small",
    "Verif.Pot.OblPerf.Obl.C120_agree"
   ],
   "note": "Exact arithmetic. Missing: derivatives below the thresholds (near the equatorial plane), where truncated expansions are used on purpose; huge coordinates; conversion to other coordinates is C57/C58."
  },
  {
   "property": "C121",
   "status": "partial",
   "theorems": [
    "Verif.Orbit.Variational.C121_initial",
    "Verif.Orbit.Variational.C121_rhs",
    "Verif.Orbit.Variational.C121_equation",
    "Verif.Orbit.Variational.C121_stored",
    "Verif.Orbit.Variational.C121_stored_inexact",
    "Verif.Orbit.Variational.C121_log",
    "Verif.Orbit.Variational.C121_bounded",
    "Verif.Orbit.Variational.C121_initial_norm"
   ],
   "note": "Exact arithmetic; the solution of the linear equation over a timestep is any family of linear maps (C121_stored_inexact) or of exact propagators (the other theorems); the numerical solver itself is the subject of C85. Missing: choice of output times within a timestep, time bookkeeping of the solver, calcLyapunovExponent."
  }
 ]
}