C113 | partial | Gal.C113_schedule Gal.C113_local Gal.C113_eddington Gal.C113_jeansSph Gal.C113_jeansAxi Gal.C113_dispersion Gal.C113_dispersion_radial Gal.C113_jeansSph_bound_partial Gal.C113_refuted_bound Gal.C113_refuted_gaussian | Exact arithmetic; generator, velocity sampler and Jeans moments are parameters. Two documented claims are false of the Jeans variants: after 100 unbound draws the last one is kept, and the tangential velocity is not Gaussian (kurtosis 9/2), only its dispersion is right.
C114 | proved | Gal.C114_normal Gal.C114_marginal Gal.C114_range | Exact arithmetic (real numbers), uniform deviates.
C116 | partial | Gal.Jeans.C116_nodes Gal.Jeans.C116_tail Gal.Jeans.C116_jeans Gal.Jeans.C116_model Gal.Jeans.C116_refuted_negative_density | Exact arithmetic, exact integrals and derivatives, grid is a parameter. What fails: a node with a negative density and a positive pressure is kept with the escape velocity as its dispersion.
C117 | partial | Gal.SelfCons.C117_potential Gal.SelfCons.C117_potential_exists Gal.SelfCons.C117_iteration Gal.SelfCons.C117_completes Gal.SelfCons.C117_failure Gal.SelfCons.C117_order Gal.SelfCons.C117_fixed Gal.SelfCons.C117_consistent_partial Gal.SelfCons.C117_refuted_stale | Exact arithmetic; the expansions, the action finder and the density of a DF component are parameters (which may fail). What fails: if the action finder cannot be created for the new potential, the model keeps the stale one with the new potential and later iterations use this pair.
