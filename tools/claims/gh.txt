C103 | proved | GH.C103_hermite GH.C103_hermite_deriv GH.C103_ortho GH.C103_hermite_norm GH.C103_normn GH.C103_value GH.C103_norm GH.C103_project GH.C103_moments_sum GH.C103_matrix GH.C103_fit_interp_value GH.C103_fit_interp_deriv GH.C103_fit_interp_deriv_higher GH.C103_fit_fnc_value GH.C103_fit_fnc_deriv GH.C103_stationary GH.C103_classic_integrand GH.C103_classic GH.C103_gauss_zeroth GH.C103_fitted_zeroth GH.C103_fit_higher_order_refuted | exact real arithmetic; the integration routine and the Levenberg-Marquardt minimiser are not modelled here (the theorems are about what they are given, and about a stationary point); the decimal constants of normn are within 5e-17
