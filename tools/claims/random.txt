C19 | partial | Random.C19_range_partial Random.C19_refuted Random.C19_refuted_any_seed Random.C19_refuted_user_state Random.roundToDouble_nearest | The documented half-open range is false of the code: the value 1 is returned for 1024 of the 2^64 words, from every seed. Proved: closed interval, exact condition for 1, and the negation.
C20 | proved | Random.C20_jump_is_2pow64_steps Random.C20_full_period Random.C20_initial_state_nonzero Random.C20_streams_disjoint | About the states assigned by randomize(); see C21 for how random() uses them.
C21 | partial | Random.C21_refuted Random.C21_interference_witness Random.C21_interference_generic Random.C21_single_thread_partial Random.C21_repaired_private | False of the code for two or more threads (missing factor 2 in the index of the thread's state); negation proved with the default seed, single-thread case proved, and the property proved for the corrected index.
C22 | proved | Random.C22_permutation Random.C22_draws_determined | Random stream is arbitrary.
C23 | proved | Random.C23_unit_vector Random.C23_perp_vector Random.C23_rotation | Exact arithmetic (real numbers).
C24 | proved | Random.C24_value Random.C24_range Random.C24_injective Random.C24_bad_base | Exact arithmetic (rationals); base 0 and 1 are not rejected by the code.
C25 | proved | Random.C25_hash_one_word Random.C25_hash_seed | Exact 64-bit arithmetic.
C41 | partial | Random.C41_nonzero_state_stays_nonzero Random.C41_hash_can_be_degenerate | The property is false of the code: hash() may return 0, from which the generator never escapes; proved for nonzero states.
