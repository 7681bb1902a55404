C37 | proved | BSpline.C37_partition_of_unity BSpline.C37_convex_hull | every degree, grid, segment and point, exact real arithmetic
C50 | proved | BSpline.C50_derivative BSpline.C50_derivs_sum_zero BSpline.C50_continuity | every degree and order, exact real arithmetic
C51 | proved | BSpline.C51_naturalCubic BSpline.C51_sum BSpline.C51_nonneg BSpline.C51_second_derivative_ends BSpline.C51_continuity BSpline.C51_extrapolation BSpline.C51_derivative | every grid size, including 2 and 3
C111 | proved | Spline.LogLog.C111_positive Spline.LogLog.C111_endSlopes Spline.LogLog.C111_powerLaw Spline.LogLog.C111_any Spline.LogLog.C111_continuous Spline.LogLog.C111_refuted_smooth | exact real arithmetic, positive arguments; C111_refuted_smooth shows that positivity of all values is needed for the derivative to be continuous (constant extrapolation next to a non-positive value, by design)
C112 | partial | Spline.LogLog.C112_positive Spline.LogLog.C112_powerLaw Spline.LogLog.C112_excluded Spline.LogLog.C112_refuted_monotone | everything except monotonicity is proved; monotonicity is refuted (C112_refuted_monotone): the check in the code is the one for cubic interpolation. Values of any sign: C111_any and C111_continuous cover the second constructor as well
