C03 | proved | Config.C03_map_refinement Config.C03_pop_value Config.C03_empty_key Config.C03_set_in_place Config.C03_set_appends | Refinement to an abstract map keyed by the lower-cased name.
C04 | proved | Config.C04_duplicates_rejected Config.C04_preserved Config.C04_comment_verbatim Config.C04_pair_normalised | 
C05 | proved | Config.C05_getStringAlt Config.C05_popStringAlt | 
C06 | proved | Config.C06_round_trip Config.C06_same_values Config.C06_blank_value_changed Config.C06_bad_key_changed | Well-formedness of keys/values passed to set() is spelled out as GoodKey/GoodValue and shown necessary by examples.
C07 | proved | Config.C07_memory_safe Config.C07_sections Config.C07_header Config.C07_lines | 
C08 | partial | Config.C08_written_iff Config.C08_untouched Config.C08_flagging Config.C08_round_trip_partial Config.C08_values_preserved_partial Config.C08_second_save_identical Config.C08_refuted_nameless Config.C08_empty_section_lost | Round trip proved for all reachable states in which the nameless section, if any, is the first one; empty sections are lost and a nameless section created later is merged into its predecessor (proved counterexamples).
