C26 | proved | SphHarm.C26_decode SphHarm.C26_encode SphHarm.C26_injective SphHarm.index_l_rounding | Unbounded integers; the truncated square root is exact for 32-bit integers under any sane rounding (proved).
C27 | proved | SphHarm.C27_reflections SphHarm.C27_accepts SphHarm.C27_refuted_zrotation | The harmonics are those computed by sphHarmArray. The z-rotation flag is not enforced by the constructor for mmax>0, contrary to the header's table (proved).
C28 | proved | SphHarm.C28_no_loss SphHarm.C28_tight SphHarm.C28_rejects | All arrays of coefficients.
C29 | proved | Fourier.C29_multiAngle Fourier.C29_with_sines Fourier.C29_cosines_only Fourier.C29_coefficients | Exact arithmetic.
C48 | proved | SphHarm.C48_derivatives SphHarm.C48_parity | Exact arithmetic; tabulated constants replaced by their formula; angles with 0 < sin(theta) < 1e-8 (asymptotic branch) excluded for m<=2.
C49 | proved | SphHarm.C49_azimuthal SphHarm.C49_accepts | All flag sets.
C93 | proved | SphHarm.C93_forward SphHarm.C93_inverse SphHarm.C93_roundtrip SphHarm.C93_stride SphHarm.C93_nonvacuous GL.rule_exists | Exact arithmetic; the quadrature rule is an argument with the properties of the Gauss-Legendre rule (proved to exist for every order).
