[
[
"locals",
"cancellation-avoiding branch skipped",
"equivalent over the reals: both branches compute the same value; no claim becomes false"
],
[
"gweight",
"fewer digits",
[
"Pot.C65_exact_sphere"
]
],
[
"nonzeroComponents",
"no check of the derivative order",
[
"Spline.C76_nonzeroComponents"
]
],
[
"integrateBspline",
"table overrun not checked",
[
"Spline.C73_bspline_unsupported"
]
],
[
"polishRoot4",
"polishing stops earlier",
"equivalent over the reals: an exact root is unchanged by polishing, no claim becomes false"
],
[
"polishRoot4",
"wrong direction of the step",
"equivalent over the reals: the correction of an exact root is zero, no claim becomes false"
],
[
"callFncs",
"functions called after",
[
"Orbit.C81_callFncs"
]
],
[
"integrateOverRectangle",
"wrong weight",
"C80 is claimed for N<=1 only (partial); the edit changes N>1"
],
[
"d4",
"20th",
"below the rounding of the literal in double precision (505.92 has 16 significant digits) and below the accuracy stated in C83_dense_order; no claim becomes false"
],
[
"loop",
"repeats too often",
[
"Ode.Hermite.C84_attempts"
]
],
[
"codeLambdas",
"wrong last digits of lambda4",
"the edit is at the 38th digit, below the stated relative tolerance of C86 (and below double precision); no claim becomes false"
],
[
"ratioOf",
"at the origin",
"equivalent: at the origin the point lies on the boundary of all cells of the innermost shell, and every choice satisfies the claim; no claim becomes false"
],
[
"CubicSpline2d.evalDeriv",
"offset taken from the opposite corner",
"equivalent in exact arithmetic (the offset only reduces rounding errors); no claim becomes false"
],
[
"CubicSpline2d.create",
"wrong array in the regularization",
[
"Spline.C96_regularized",
"Spline.C96_regularized_falling"
]
],
[
"bhVX",
"velocities of black holes swapped",
[
"Raga.C106_timestep"
]
],
[
"isCaptured",
"massless particles counted",
[
"Raga.C106_finish"
]
],
[
"logSlope",
"zero values",
[
"Spline.LogLog.C112_excluded"
]
],
[
"epicycleFreqs",
"origin not special",
[
"Pot.PotUtils.C118_epicycle_origin"
]
]
]