C11 | partial | BinSearch.C11_safe BinSearch.C11_bin_of_guess BinSearch.C11_bin_unique BinSearch.C11_guess_in_range BinSearch.C11_binSearch_partial BinSearch.C11_refuted_rounding | Memory safety for all inputs; correct bin in exact arithmetic; with rounding the documented result fails when the initial guess rounds to the last node (counterexample proved).
C12 | partial | Core.C12_pow_partial Core.C12_refuted_intmin Core.C12_pow_shortcuts | All exponents except INT_MIN, for which the loop is proved not to terminate.
C13 | proved | Core.C13_wrapAngle Core.C13_wrapAngle_range_any_rounding Core.C13_unwrapAngle | Range holds for any rounding of the quotient; congruence in exact arithmetic.
C14 | proved | Core.C14_averager | Exact arithmetic; disp() divides by N-1 although the header says 1/N.
C15 | proved | Core.C15_linear Core.C15_quadratic | Exact arithmetic.
C39 | partial | Core.C39_nonzero_partial Core.C39_second_zero_partial Core.C39_refuted_first_zero Core.C39_nan | The sign is reversed when the first argument is zero (negation proved).
C44 | proved | Core.C44_cubic Core.C44_degenerate Core.C44_sorting Core.C44_polish_halley Core.C44_polish_moves | Exact arithmetic.
C16 | partial | FindRoot.C16_bracket FindRoot.C16_nan_iff FindRoot.C16_inside_only FindRoot.C16_accuracy_partial FindRoot.C16_refuted_both_ends FindRoot.C16_refuted_newton | Exact arithmetic. Bracketing, termination, NaN condition and locality proved for all functions; accuracy proved for functions without derivatives; refuted for functions with derivatives (Newton exit) and when both end values are zero (midpoint returned).
C18 | partial | Core.C18_interp_ends Core.C18_interp_slopes Core.C18_interp_cubic Core.C18_linear Core.C18_derivs_partial Core.C18_refuted_equidistant | Exact arithmetic; the third derivative is NaN for equidistant nodes (refutation proved).
C17 | proved | Scaling.C17_inf Scaling.C17_semi_plus Scaling.C17_semi_minus Scaling.C17_semi_num Scaling.C17_double_half Scaling.C17_double_odd Scaling.C17_double_deriv Scaling.C17_double_mono Scaling.C17_double_inverse Scaling.C17_lin Scaling.C17_cub Scaling.C17_qui Scaling.C17_integral Scaling.C17_cub_scale Scaling.C17_cub_scale' | Exact arithmetic, 0<s<1 for infinite intervals. scale() of the cubic transformation (a fixed rational formula and two or three Newton steps) inverts unscale() up to 1e-13 relative. The Halley iterations used by scale() of the quintic and the Newton iterations of the (u0>0) doubly-infinite transformations are not covered.
C45 | partial | Adapters.C45_product Adapters.C45_shifted Adapters.C45_loglog_partial Adapters.C45_refuted_loglog Adapters.C45_scaled Adapters.C45_monomial Adapters.C45_monomial_integral Adapters.C45_gaussian Adapters.C45_gaussian_integral | The second derivative of the log-log adapter is wrong (zero) whenever the second derivative of the function is zero: refutation proved for f(x)=x+1. Even Gaussian moments (error function) not modelled.
C46 | partial | FindMin.C46_findMin_partial FindMin.C46_refuted_nan | The GSL minimizer is an arbitrary procedure subject to a contract. NaN is returned for finite functions when the bracketing stage shrinks the interval below the tolerance (refutation proved).
C47 | partial | FindMin.C47_posneg_partial FindMin.C47_refuted_origin FindMin.C47_refuted_minimum FindMin.C47_nearest_root FindMin.C47_refuted_between FindMin.C47_posneg_concave_partial FindMin.C47_refuted_concave | Sign claim proved for nonzero slope and favourable curvature; refuted at x0=f(x0)=0 and at a minimum; dxBetweenRoots is half of the distance (proved).
