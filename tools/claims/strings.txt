C01 | proved | Strings.C01_splitString Strings.C01_tokenisation_unique Strings.C01_consequences Strings.C01_join_split | Independent inductive specification Tok; existence, uniqueness and consequences.
C02 | proved | Strings.C02_equivalence Strings.C02_overloads_agree | ASCII tolower (C locale).
C09 | proved | Strings.C09_toBool Strings.C09_toInt | strtod is a parameter of the model.
C10 | partial | Strings.C10_exact_width_partial Strings.C10_refuted_31 Strings.C10_uninitialised_read Strings.C10_refuted_wide | Proved for width<=30; false of the code for width 31 (30 characters, and reads an unwritten byte) and for wider requests (clamped).
C42 | proved | Strings.C42_endsWithStr | 
C43 | proved | Strings.C43_demangle_identity Strings.C43_demangle_compositional Strings.C43_demangle_identifier | The library demangler is an arbitrary parameter.
