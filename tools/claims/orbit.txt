C81 | partial | Orbit.C81_run Orbit.C81_callFncs Orbit.C81_regular Orbit.C81_steps Orbit.C81_last Orbit.C81_refuted_continue Orbit.C81_refuted_index | the continuation by a second run() is refuted (C81_refuted_continue); regular sampling needs an interval above the roundoff error of time (C81_refuted_index otherwise); runtime functions that reset the orbit by calling init() are not modelled
C82 | partial | Orbit.C82_init Orbit.C82_car Orbit.C82_cyl Orbit.C82_sph Orbit.C82_normalize_cyl Orbit.C82_normalize_sph Orbit.C82_jacobi Orbit.C82_hermite Orbit.C82_accuracyFactor Orbit.C82_refuted_cyl Orbit.C82_refuted_hermite | proved in Cartesian coordinates; in cylindrical and spherical ones for regular values of coordinates, or with zero azimuthal velocity and force anywhere; refuted for R<0 with vphi!=0 and for Hermite in time-dependent potentials
C121 | partial | Orbit.Variational.C121_initial Orbit.Variational.C121_rhs Orbit.Variational.C121_equation Orbit.Variational.C121_stored Orbit.Variational.C121_stored_inexact Orbit.Variational.C121_log Orbit.Variational.C121_bounded Orbit.Variational.C121_initial_norm | Exact arithmetic; the solution of the linear equation over a timestep is any family of linear maps (C121_stored_inexact) or of exact propagators (the other theorems); the numerical solver itself is the subject of C85. Missing: choice of output times within a timestep, time bookkeeping of the solver, calcLyapunovExponent.
