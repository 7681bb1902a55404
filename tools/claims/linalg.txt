C32 | partial | Band.C32_index_bound Band.C32_store_read Band.C32_values Band.C32_size Band.C32_elem_partial Band.C32_refuted_small | everything for all sizes and bands, except that elem() is only right if size >= 2*band; for smaller matrices it reports positions outside of the matrix (counterexample proved)
C33 | proved | Band.C33_dgemv Band.C33_daxpy Band.C33_dmul | exact arithmetic in any field, all sizes and bands
C34 | proved | Band.C34_solveBand Band.C34_unique Band.C34_corners_unused Band.C34_posdef Band.C34_index_bounds | exact arithmetic; the no-zero-pivot condition is stated as nonvanishing leading minors and derived for positive definite matrices
