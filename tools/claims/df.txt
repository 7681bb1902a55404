C98 | partial | DF.C98_exp_value DF.C98_exp_deriv DF.C98_dpl_value DF.C98_dpl_deriv DF.C98_qi_value DF.C98_qi_deriv DF.C98_refuted_core DF.C98_refuted_rot | partial because the code refutes part of it: the double power law with a core is zero at the origin, and undefined for zero angular momentum if rotation is enabled with the default scale; for 0<q<=1e-7 only non-negativity is proved
C99 | proved | DF.C99_triang_there_back DF.C99_triang_back_there DF.C99_triang_cut DF.C99_triang_error DF.C99_triang_jacobian DF.C99_total_mass DF.C99_rect_there_back DF.C99_rect_back_there DF.C99_rect_jacobian DF.C99_composite_separate DF.C99_composite_sum | exact real arithmetic; the numerical cubature itself is C-cubature (other claims); amplitudes outside exp(-48.98)..exp(48.98) are cut off by the code, as stated in the theorem
