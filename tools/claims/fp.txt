C104 | proved | FP.C104_step FP.C104_nonneg FP.C104_equilibrium_flux FP.C104_equilibrium FP.C104_wminus_pos FP.C104_wminus_accuracy FP.C104_correction_negative | exact real arithmetic, finite-difference (Chang-Cooper) method, one component and one step with given coefficients; infinite loss-cone rates, the finite-element methods, the computation of diffusion coefficients and the update of the potential are not modelled; C104_correction_negative shows that the extrapolation term may produce negative values
C105 | partial | FP.C105_mass_budget_partial FP.C105_lossCone FP.C105_recorded FP.C105_outer_leak FP.C105_correction_mass FP.C105_lossCone_mismatch FP.C105_no_losscone_throws | the exact budget is proved; the code does not record the flux through the outer boundary, the correction is not conservative, and the recorded loss-cone mass differs from the actual one (refutations); with the loss cone switched off every step throws
