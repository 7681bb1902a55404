C101 | partial | IO.C101_text_roundtrip IO.C101_nonfinite_particle_lost IO.C101_unterminated_line_ignored IO.C101_header_injection IO.C101_short_file_detection | round trip proved for all finite particles and one-line headers; partial because the code loses particles with non-finite x, and a header with line breaks adds particles (both proved as refutations); printf/strtod enter as assumptions
C102 | partial | IO.Nemo.C102_nemo_file IO.Nemo.Decodes.unique IO.Nemo.C102_nemo_empty_snapshot_undecodable | proved for any non-zero number of particles below 2^31; refuted for zero particles
