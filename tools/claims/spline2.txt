C69 | proved | Spline.C69_cubic Spline.C69_quintic Spline.C69_cubic_exact Spline.C69_quintic_exact Spline.C69_linear | every grid, data and point, exact real arithmetic
C70 | partial | Spline.C70_construct Spline.C70_reproduces Spline.C70_single Spline.C70_refuted_symmetric_clamped | proved for all grids, values and end conditions, except symmetric data with end slopes that break the symmetry, where the code ignores the left slope (refuted by a witness)
C71 | proved | Spline.C71_rising Spline.C71_falling Spline.C71_monotone Spline.C71_untouched | every grid, data and end condition, exact real arithmetic
C72 | proved | Spline.C72_quintic | every grid, values and slopes, exact real arithmetic
C73 | proved | Spline.C73_integrate Spline.C73_cubic Spline.C73_bspline Spline.C73_bspline_unsupported | (N+n)/2 < 20 (tabulated rules); the fallback for larger powers is covered by C74
C74 | partial | Spline.C74_vandermonde Spline.C74_convolve Spline.C74_product_partial Spline.C74_refuted_uninitialised Spline.C74_refuted_zero_mean | coefficients recovered exactly for any degree; the convolution is exact for segments whose weight is not negligible; the product only when the lower limit is in the first segment: otherwise the code reads uninitialised memory (refuted by a witness); a segment whose weight has zero mean is dropped (refuted by a witness)
C75 | partial | Spline.C75_roots Spline.C75_cubic_exact Spline.C75_cubic Spline.C75_bspline Spline.C75_linear Spline.C75_refuted_disjoint Spline.C75_refuted_duplicate | soundness, order and completeness up to the duplicate tolerance (10 eps relative) for any interpolator with exact segment roots, and for the cubic, linear and B-splines; an interval that does not overlap the grid trips an assertion (refuted by a witness); a root at zero on a node is repeated (refuted by a witness)
C76 | partial | Spline.C76_bspline Spline.C76_interpolate Spline.C76_nonzeroComponents Spline.C76_addPoint Spline.C76_deriv Spline.C76_deriv_antideriv Spline.C76_antideriv Spline.C76_cubicFromAmpl Spline.C76_refuted_eval | all degrees, grids, amplitudes; BsplineInterpolator1d::eval (all basis functions at a point) returns zeros only (refuted)
C77 | partial | Spline.C77_extrema Spline.C77_cubic Spline.C77_quintic Spline.C77_bspline Spline.C77_linear_partial Spline.C77_refuted_endpoint Spline.C77_refuted_plateau | any data, if the stationary points are further apart than the tolerance; linear interpolators only without equal adjacent values and with the upper end not at an interior node, otherwise refuted by witnesses
C78 | partial | Core.C78_quartic Core.C78_all Core.C78_refuted | exact arithmetic; roots further apart than the tolerance, discriminant of the resolvent not within the tolerance of solveCubic, and zero not a multiple root of the resolvent, when the claim is refuted by a witness (x^4+x^2=0)
C95 | partial | Spline.C95_cubic Spline.C95_quintic Spline.C95_cubic_exact Spline.C95_quintic_exact Spline.C95_cubic3d Spline.C95_cubic3d_exact Spline.C95_bilinear Spline.C95_bilinear_bounds Spline.C95_trilinear Spline.C95_refuted_bilinear_mixed | exact real arithmetic, all grids and node data; the mixed second derivative of the bilinear interpolator is reported as zero (refuted)
C96 | proved | Spline.C96_cubic Spline.C96_gridlines Spline.C96_quintic Spline.C96_regularized Spline.C96_regularized_falling | exact real arithmetic
