C106 | partial | Raga.C106_timestep Raga.C106_once Raga.C106_capture_iff Raga.C106_finish Raga.C106_total_mass Raga.C106_radius_partial Raga.C106_binary_mass_partial Raga.C106_radius_binary_refuted Raga.C106_radius_coalesced_refuted Raga.C106_binary_fraction_refuted | exact arithmetic, given orbit and root-finder; the capture radii of a binary and the update of its mass ratio with a fraction below 1 are wrong in the code (refuted)
C107 | partial | Raga.C107_assertion Raga.C107_encounter Raga.C107_axisym_partial Raga.C107_torque_sign_refuted Raga.C107_energy Raga.C107_angmom Raga.C107_admissible Raga.C107_hardening Raga.C107_terminates_partial Raga.C107_nontermination_refuted Raga.C107_sum Raga.C107_episode_partial Raga.C107_peters Raga.C107_coalescence_time | exact arithmetic; the sign of the stellar torque and termination for an unbound binary are refuted; termination with gravitational waves is not proved
C108 | partial | Raga.C108_samples Raga.C108_samples_complete Raga.C108_mean_energy Raga.C108_no_kick Raga.C108_eliminate Raga.C108_slopes Raga.C108_continuous Raga.C108_derivatives Raga.C108_finite_mass Raga.C108_slope_partial Raga.C108_slope_refuted Raga.C108_energies | diffusion coefficients, the fitted spline and the generator are given; the limit on the slope of the potential holds only for its estimate (the potential is finite at origin in any case)
