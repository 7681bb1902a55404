C83 | partial | Ode.C83_init Ode.C83_initTimeStep Ode.C83_step_given Ode.C83_step_auto Ode.C83_step_sign Ode.C83_advances Ode.C83_dense Ode.C83_dense_step Ode.C83_order Ode.C83_errest Ode.C83_dense_order | the order of accuracy is proved for autonomous systems with an analytic right-hand side, up to the roundoff (<1e-22) of the coefficients of the method printed in the code; non-autonomous systems are not covered by the order theorems; the formula for the estimate of the first step is not modelled except for its final limits
C84 | partial | Ode.Hermite.C84_step Ode.Hermite.C84_attempts Ode.Hermite.C84_dense Ode.Hermite.C84_exact Ode.Hermite.C84_order Ode.Hermite.C84_refuted_continuous Ode.Hermite.C84_refuted_init Ode.Hermite.C84_refuted_index Ode.Hermite.C84_refuted_free | refuted: continuity of the dense output across steps, getSol after init, the check of the index, the timestep for force-free motion
C85 | partial | Ode.GL.C85_init3 Ode.GL.C85_dense3 Ode.GL.C85_residual3 Ode.GL.C85_exact3 Ode.GL.C85_linear3 Ode.GL.C85_indep3 Ode.GL.C85_nodes3 Ode.GL.C85_init4 Ode.GL.C85_dense4_partial Ode.GL.C85_residual4 Ode.GL.C85_exact4 Ode.GL.C85_linear4 Ode.GL.C85_indep4 Ode.GL.C85_nodes4 Ode.GL.C85_refuted_velocity4 | fully proved for GL3; for GL4 the reported velocity is not the derivative of the position inside the step (C85_refuted_velocity4), the rest is proved
