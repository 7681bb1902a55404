C62 | partial | Pot.C62_plummer Pot.C62_isochrone Pot.C62_nfw_outer Pot.C62_nfw_inner Pot.nfw_series_error Pot.C62_nfw_value Pot.C62_sph_car Pot.C62_sph_car_origin Pot.C62_sph_cyl Pot.C62_miyamotoNagai Pot.C62_logarithmic Pot.C62_harmonic Pot.C62_keplerBinary_partial Pot.C62_keplerBinary_hess_refuted Pot.C62_keplerBinary_potential | Plummer, isochrone, NFW, Miyamoto-Nagai, logarithmic, harmonic: proved; KeplerBinary: potential and gradient proved, the Hessian has the wrong sign (refuted); further potentials: see C97 (disks), C100 (Dehnen, Ferrers, perfect ellipsoid)
C63 | proved | Pot.C63_plummer Pot.C63_plummer_point Pot.C63_plummer_mass Pot.C63_isochrone Pot.C63_nfw Pot.C63_nfw_inner Pot.C63_miyamotoNagai Pot.C63_miyamotoNagai_axis Pot.trace_sphHess | Plummer, isochrone, NFW (inner series to stated relative accuracy), Miyamoto-Nagai
C66 | partial | Pot.kepler_hasDerivAt Pot.exists_solvesKepler Pot.C66_barycentre Pot.C66_velocity Pot.C66_newton Pot.sin_taylor3 Pot.halley_residual Pot.C66_solveKepler_partial Pot.C66_solveKepler_circular Pot.C66_enclosedMass_refuted | solveKepler: if it returns, the residual is at most 1.2e-15 (ecc <= 1-2e-10); termination of the Halley loop is not proved
C64 | partial | Pot.C64_car Pot.laplace_cyl Pot.C64_cyl Pot.laplace_sph Pot.C64_sph Pot.C64_cyl_axis_value Pot.C64_cyl_axis Pot.C64_sph_axis Pot.C64_sph_origin Pot.C64_cyl_axis_refuted | holds off the z axis in all systems, and on the axis for axisymmetric potentials; refuted on the axis for non-axisymmetric potentials (C64_cyl_axis_refuted)
C65 | partial | Pot.meanPhi_ysym Pot.C65_exact_phi Pot.C65_axisymmetrized Pot.C65_axisymmetrized_ok Pot.C65_sphericalized Pot.kappa_bound Pot.quad_moment Pot.C65_exact_sphere Pot.C65_origin_refuted | r>0 (R>0 for the derivative claim); radial derivatives carry a factor kappa with |kappa-1|<=1e-16 for r>=1e-80 from the code's guard against division by zero; refuted at the origin (C65_origin_refuted)
C67 | proved | Pot.C67_evalComponents Pot.C67_composite_car Pot.C67_composite_cyl Pot.C67_composite_sph Pot.C67_ofCar Pot.C67_ofCyl Pot.C67_ofSph Pot.C67_density_sum Pot.C67_mass_sum Pot.C67_density_many Pot.C67_poisson Pot.C67_uniformAcc Pot.C67_shifted Pot.C67_tilted Pot.C67_rotating_car Pot.C67_rotating_cyl Pot.C67_rotating_sph Pot.C67_rotating_represents Pot.C67_scaled_car Pot.C67_scaled_cyl Pot.C67_scaled_sph Pot.C67_scaled_represents Pot.C67_evolving_before Pot.C67_evolving_after Pot.C67_evolving_linear Pot.C67_evolving_nearest Pot.C67_evolving_safe Pot.C67_evolving_derivs | derivatives off the z axis for components native to cylindrical/spherical coordinates; exact arithmetic; splines for time-dependent parameters represented by their value
C68 | proved | Pot.C68_flag_values Pot.C68_composite Pot.C68_evolving Pot.C68_shifted Pot.C68_tilted Pot.C68_rotating Pot.C68_scaled Pot.C68_analytic Pot.C68_radial Pot.C68_miyamotoNagai Pot.C68_keplerBinary Pot.C68_tilted_dropped | flags as natural numbers
C97 | partial | Pot.C97_radial Pot.C97_radial_hole Pot.C97_refuted_centre Pot.C97_vertical Pot.C97_vertical_value Pot.C97_vertical_thin Pot.C97_vertical_plane Pot.C97_vertical_outside Pot.C97_vertical_norm Pot.C97_ansatz Pot.C97_ansatz_origin Pot.C97_poisson Pot.C97_poisson_axis Pot.C97_split Pot.C97_disk Pot.C97_disk_thin Pot.C97_disk_origin Pot.C97_mass Pot.C97_mass_space | partial because the code refutes part of it: at the centre of a disk without a hole that is not a plain exponential, the derivatives of the radial function are NaN (C97_refuted_centre), and in a layer |z|<1e-5 h (exponential) or 1e-3 h (isothermal) the function H is a truncated series, whose difference from the exact antiderivative is bounded (C97_vertical_value). Everything else is proved for all parameters and points. The special functions (Gamma, Bessel K by its integral representation) and the quadrature for the mass in the generic case are taken as exact
C100 | partial | Pot.FerrersP.C100_ferrers_root Pot.FerrersP.C100_ferrers_inside Pot.FerrersP.C100_ferrers_outside Pot.FerrersP.C100_ferrers_far Pot.FerrersP.C100_ferrers_value Pot.FerrersP.C100_ferrers_potential Pot.FerrersP.C100_ferrers_mass Pot.FerrersP.C100_ferrers_far_value Pot.DehnenP.C100_dehnen Pot.DehnenP.C100_dehnen_value Pot.DehnenP.C100_dehnen_axis Pot.PerfEll.C100_perfect_ellipsoid Pot.PerfEll.C100_perfect_ellipsoid_poisson Pot.PerfEll.C100_perfect_ellipsoid_value Pot.PerfEll.C100_perfect_ellipsoid_taylor Pot.PerfEll.C100_perfect_ellipsoid_taylor_prolate Pot.PerfEll.C100_perfect_ellipsoid_focal_poisson Pot.PerfEll.C100_perfect_ellipsoid_focal_oblate Pot.PerfEll.C100_perfect_ellipsoid_focal_prolate Pot.PerfEll.C100_perfect_ellipsoid_sign | proved for Ferrers (except on the surface m=1 and on the sphere r=10a where the formula is switched; the root of the cubic equation is assumed exact), the spherical Dehnen model (the value at large radii is an expansion with a proved error bound), and the perfect ellipsoid (off the symmetry axis, off the focal disk); refuted for prolate perfect ellipsoids below the plane near the focal ring (wrong sign of the radial force) and for negative axis ratios of Dehnen models; triaxial Dehnen integrals and OblatePerfectEllipsoid are not modelled
C109 | proved | Pot.C109_coords Pot.C109_symmetry Pot.C109_accepts Pot.C109_mass Pot.C109_infinite Pot.C109_cusp Pot.C109_monotone Pot.C109_slopes | exact real arithmetic; Gamma function and integrals exact; radii r > 0
C110 | partial | Pot.C110_nuker_accepts Pot.C110_nuker_mass Pot.C110_nuker_deproject Pot.C110_nuker_negative_mass Pot.C110_nuker_weak_cutoff Pot.C110_sersic_mass Pot.C110_sersic_half Pot.C110_sersic_unique Pot.C110_sersic_deproject_partial | the mass of a Nuker model needs a positive cutoff strength, which is not checked; for Sersic models no bound on the truncated part of the integral and on the bracket of the root is proved; interpolation not modelled
C115 | proved | Pot.King.C115_density Pot.King.C115_monotone Pot.King.C115_poisson Pot.King.C115_truncation Pot.King.C115_centre Pot.King.C115_table Pot.King.C115_model Pot.King.C115_refuted_continuous | Exact arithmetic, exact solution of the ODE and exact roots (parameters). The density as a function of the potential jumps at the threshold between the closed form and the series.
C118 | partial | Pot.PotUtils.C118_scale Pot.PotUtils.C118_scale_range Pot.PotUtils.C118_unscale Pot.PotUtils.C118_deltaE Pot.PotUtils.C118_roots Pot.PotUtils.C118_powerlaw Pot.PotUtils.C118_powerlaw_deriv Pot.PotUtils.C118_powerlaw_brackets Pot.PotUtils.C118_innerSlope Pot.PotUtils.C118_innerSlope_log Pot.PotUtils.C118_epicycle Pot.PotUtils.C118_epicycle_origin Pot.PotUtils.C118_tables Pot.PotUtils.C118_extrap_derivs Pot.PotUtils.C118_outer_match Pot.PotUtils.C118_interp_derivs Pot.PotUtils.C118_interp_epicycle | Exact arithmetic; special cases for infinite values are not modelled; findRoot itself is C16; here the functions whose roots are searched, their derivatives, brackets for power laws, scaling, tables, extrapolation. The 2d table of peri/apocentres (Interpolator2d) is not modelled.
C119 | partial | Pot.Projected.C119_bijection Pot.Projected.C119_density Pot.Projected.C119_derivatives Pot.Projected.C119_value_partial Pot.Projected.C119_value_offset Pot.Projected.C119_refuted_value Pot.Projected.C119_angles Pot.Projected.C119_mirrored | Exact arithmetic and integrals; fixed moment of time. What fails: the projected potential is measured from the integral along the model's z axis rather than the line of sight (0,0), so it is off by a constant unless the line of sight is the z axis or the potential is spherical.
C120 | partial | Pot.OblPerf.Obl.C120_G Pot.OblPerf.Obl.C120_G_derivs Pot.OblPerf.Obl.C120_create Pot.OblPerf.Obl.C120_domain Pot.OblPerf.Obl.C120_derivatives Pot.OblPerf.Obl.C120_G_small Pot.OblPerf.Obl.C120_agree | Exact arithmetic. Missing: derivatives below the thresholds (near the equatorial plane), where truncated expansions are used on purpose; huge coordinates; conversion to other coordinates is C57/C58.
