{
 "claims": [
  {
   "property": "C01",
   "status": "proved",
   "theorems": [
    "Verif.Password.C01_composition"
   ],
   "note": ""
  },
  {
   "property": "C02",
   "status": "proved",
   "theorems": [
    "Verif.Password.C02_permitted",
    "Verif.Password.C02_noUpper_default"
   ],
   "note": ""
  },
  {
   "property": "C03",
   "status": "proved",
   "theorems": [
    "Verif.Password.C03_no_repeats"
   ],
   "note": ""
  },
  {
   "property": "C04",
   "status": "proved",
   "theorems": [
    "Verif.Password.C04_rejections",
    "Verif.Password.C04_rules_total",
    "Verif.Password.C04_newGenerator_nonempty",
    "Verif.Password.C04_mustGenerate"
   ],
   "note": ""
  },
  {
   "property": "C05",
   "status": "proved",
   "theorems": [
    "Verif.Password.C05_every_password"
   ],
   "note": ""
  },
  {
   "property": "C06",
   "status": "proved",
   "theorems": [
    "Verif.Password.C06_uniform"
   ],
   "note": ""
  },
  {
   "property": "C07",
   "status": "proved",
   "theorems": [
    "Verif.Password.C07_unbiased",
    "Verif.Password.C07_in_range"
   ],
   "note": ""
  },
  {
   "property": "C08",
   "status": "partial",
   "theorems": [
    "Verif.Password.C08_counterexample",
    "Verif.Password.C08_partial",
    "Verif.Password.C08_actual_length"
   ],
   "note": "The code violates the full statement (negative counts are accepted); counterexample proved, the exact length for all integers proved, and the statement for non-negative counts."
  },
  {
   "property": "C09",
   "status": "proved",
   "theorems": [
    "Verif.Password.C09_terminates",
    "Verif.Password.C09_overlap_diverges"
   ],
   "note": "Termination with probability one for disjoint alphabets; for overlapping alphabets a diverging accepted request is exhibited."
  },
  {
   "property": "C10",
   "status": "proved",
   "theorems": [
    "Verif.FormGen.C10_form",
    "Verif.FormGen.C10_no_form"
   ],
   "note": ""
  },
  {
   "property": "C11",
   "status": "partial",
   "theorems": [
    "Verif.FormGen.C11_counterexample",
    "Verif.FormGen.C11_partial"
   ],
   "note": "The code violates it: 'a' takes the next byte of the whole password, which may be a symbol. Proved for forms without 's'; these are all that have an 'a' and keep the promise (C132)."
  },
  {
   "property": "C62",
   "status": "partial",
   "theorems": [
    "Verif.FormGen.C62_counterexample",
    "Verif.FormGen.C62_partial",
    "Verif.FormGen.C62_forms_partial"
   ],
   "note": "The code violates it for some forms ('a' re-uses characters also placed elsewhere; with --mixed b and B become equal when the form fixes the case). Proved without a form, and for all forms that are SafeForm; no other form keeps the promise (C132)."
  },
  {
   "property": "C12",
   "status": "proved",
   "theorems": [
    "Verif.Crypter.C12_decrypt64_encrypt64",
    "Verif.Crypter.C12_encrypt64_decrypt64"
   ],
   "note": "All three sizes, any history of calls, any overlap of the slices."
  },
  {
   "property": "C13",
   "status": "proved",
   "theorems": [
    "Verif.Crypter.C13_encrypt64_is_threefish",
    "Verif.Crypter.C13_encrypt_is_threefish"
   ],
   "note": "The unrolled bodies are transcribed statement by statement (tools/gen_threefish.py) and proved equal to the published cipher in Crypter/Spec.lean."
  },
  {
   "property": "C14",
   "status": "proved",
   "theorems": [
    "Verif.Crypter.C14_byte_round_trip"
   ],
   "note": "dst, src and out arbitrary slices of one heap."
  },
  {
   "property": "C15",
   "status": "proved",
   "theorems": [
    "Verif.Crypter.C15_history_independent"
   ],
   "note": "Calls that panic are not part of a history."
  },
  {
   "property": "C16",
   "status": "partial",
   "theorems": [
    "Verif.Crypter.C16_new64_words_partial",
    "Verif.Crypter.C16_new64_blockSize",
    "Verif.Crypter.C16_new64_encrypt_does_nothing"
   ],
   "note": "False as stated: New64 sets the state size to len(key)*8 with len in words; proved for the word methods, refuted for BlockSize and the byte methods."
  },
  {
   "property": "C17",
   "status": "proved",
   "theorems": [
    "Verif.Crypter.C17_new",
    "Verif.Crypter.C17_new64",
    "Verif.Crypter.C17_newSize"
   ],
   "note": "Tweak nil or at least two words (a shorter one panics)."
  },
  {
   "property": "C18",
   "status": "proved",
   "theorems": [
    "Verif.Crypter.C18_permutation"
   ],
   "note": ""
  },
  {
   "property": "C19",
   "status": "partial",
   "theorems": [
    "Verif.Crypter.C19_decrypt_iff_zero_partial",
    "Verif.Crypter.C19_false"
   ],
   "note": "False: Decrypt swaps destination and source; the round trip holds exactly for all-zero texts."
  },
  {
   "property": "C63",
   "status": "proved",
   "theorems": [
    "Verif.Crypter.C63_ciphertext_recoverable"
   ],
   "note": ""
  },
  {
   "property": "C20",
   "status": "proved",
   "theorems": [
    "Verif.QR.C20_field_laws",
    "Verif.QR.C20_no_zero_divisors"
   ],
   "note": "For every field NewField returns; newField_qr shows coding.Field is one."
  },
  {
   "property": "C21",
   "status": "proved",
   "theorems": [
    "Verif.QR.C21_mul_is_polynomial_product",
    "Verif.QR.C21_exp_is_power",
    "Verif.QR.C21_exp_log"
   ],
   "note": ""
  },
  {
   "property": "C22",
   "status": "proved",
   "theorems": [
    "Verif.QR.C22_check_bytes_make_codeword"
   ],
   "note": "Uniqueness for at most 255 check bytes."
  },
  {
   "property": "C23",
   "status": "proved",
   "theorems": [
    "Verif.QR.C23_ecc_history_independent",
    "Verif.QR.C23_bytes_after_check_depend_on_history"
   ],
   "note": "First c bytes of check; bytes after them may be cleared depending on the history (shown)."
  },
  {
   "property": "C24",
   "status": "proved",
   "theorems": [
    "Verif.QR.C24_minimum_distance",
    "Verif.QR.C24_errors_correctable"
   ],
   "note": ""
  },
  {
   "property": "C64",
   "status": "proved",
   "theorems": [
    "Verif.QR.C64_newField_accepts"
   ],
   "note": ""
  },
  {
   "property": "C25",
   "status": "proved",
   "theorems": [
    "Verif.QR.C25_write_appends_bits",
    "Verif.QR.C25_append_bytes"
   ],
   "note": ""
  },
  {
   "property": "C26",
   "status": "proved",
   "theorems": [
    "Verif.QR.C26_announced_length",
    "Verif.QR.C26_announced_length_standard"
   ],
   "note": ""
  },
  {
   "property": "C27",
   "status": "proved",
   "theorems": [
    "Verif.QR.C27_segment_decodes",
    "Verif.QR.C27_check"
   ],
   "note": ""
  },
  {
   "property": "C28",
   "status": "proved",
   "theorems": [
    "Verif.QR.C28_padding_and_check_bytes",
    "Verif.QR.C28_too_much_data"
   ],
   "note": ""
  },
  {
   "property": "C29",
   "status": "proved",
   "theorems": [
    "Verif.QR.C29_smallest_version",
    "Verif.QR.C29_densest_mode"
   ],
   "note": ""
  },
  {
   "property": "C30",
   "status": "proved",
   "theorems": [
    "Verif.QR.C30_codeword_bits_bijection",
    "Verif.QR.C30_bad_version"
   ],
   "note": ""
  },
  {
   "property": "C31",
   "status": "proved",
   "theorems": [
    "Verif.QR.C31_symbol_decodes",
    "Verif.QR.C31_plan_encode_decodes"
   ],
   "note": "Reader written from ISO 18004 for an undamaged symbol (QRSpec)."
  },
  {
   "property": "C32",
   "status": "proved",
   "theorems": [
    "Verif.QR.C32_format_information"
   ],
   "note": ""
  },
  {
   "property": "C33",
   "status": "proved",
   "theorems": [
    "Verif.QR.C33_full_blocks",
    "Verif.QR.C33_C34_generateWithConfig",
    "Verif.QR.C33_generate_scans"
   ],
   "note": "Writer accepting every write."
  },
  {
   "property": "C34",
   "status": "proved",
   "theorems": [
    "Verif.QR.C34_half_blocks",
    "Verif.QR.C33_C34_generateWithConfig",
    "Verif.QR.C34_generateHalfBlock_scans"
   ],
   "note": "One dark filler row at an edge, as the property allows."
  },
  {
   "property": "C35",
   "status": "partial",
   "theorems": [
    "Verif.QR.C35_crash_iff_too_long_partial",
    "Verif.QR.C35_long_text_crashes"
   ],
   "note": "False: the error of Encode is dropped and the nil code is dereferenced; proved to crash for exactly the texts that do not fit."
  },
  {
   "property": "C65",
   "status": "proved",
   "theorems": [
    "Verif.QR.C65_version_information"
   ],
   "note": ""
  },
  {
   "property": "C66",
   "status": "proved",
   "theorems": [
    "Verif.QR.C66_function_modules"
   ],
   "note": ""
  },
  {
   "property": "C67",
   "status": "proved",
   "theorems": [
    "Verif.QR.C67_damage_correctable"
   ],
   "note": "Uniqueness of the data; no decoder exists in the code base."
  },
  {
   "property": "C68",
   "status": "partial",
   "theorems": [
    "Verif.QR.C68_image_partial",
    "Verif.QR.C68_image_not_scaled"
   ],
   "note": "False: At ignores Scale and the quiet zone that Bounds accounts for."
  },
  {
   "property": "C36",
   "status": "proved",
   "theorems": [
    "Verif.Closest.C36_result",
    "Verif.Closest.C36_terminates",
    "Verif.Closest.C36_no_deadlock"
   ],
   "note": ""
  },
  {
   "property": "C37",
   "status": "proved",
   "theorems": [
    "Verif.Closest.C37_closest_is_best",
    "Verif.Closest.C37_closestN_is_sorted"
   ],
   "note": ""
  },
  {
   "property": "C38",
   "status": "proved",
   "theorems": [
    "Verif.Closest.C37_closest_is_best",
    "Verif.Closest.C37_closestN_is_sorted"
   ],
   "note": ""
  },
  {
   "property": "C39",
   "status": "partial",
   "theorems": [
    "Verif.Closest.C39_exact_query_partial",
    "Verif.Closest.C39_false"
   ],
   "note": "False: a shorter word with the same fragments wins (indexed \"aaa\" and \"aaaa\": the query \"aaaa\" gives \"aaa\"). Proved: the result is the word, a shorter word, or one that has all its fragments and the same length up to rounding."
  },
  {
   "property": "C40",
   "status": "partial",
   "theorems": [
    "Verif.Closest.C40_add_keeps_partial",
    "Verif.Closest.C40_false"
   ],
   "note": "False: Add numbers its words from 0 again and overwrites earlier words. Proved for words whose position is not less than the number of words added."
  },
  {
   "property": "C41",
   "status": "partial",
   "theorems": [
    "Verif.Closest.C41_no_crash_partial",
    "Verif.Closest.C41_empty_word_crashes",
    "Verif.Closest.C41_negative_crashes"
   ],
   "note": "False: an empty indexed word makes a worker divide by zero, a negative n or one of more than 2^44 makes ClosestN panic in make. Proved when no word is empty, the sizes are not negative and n is from 0 to 2^44. Memory exhaustion below the limit of the runtime is not modelled."
  },
  {
   "property": "C42",
   "status": "partial",
   "theorems": [
    "Verif.Closest.C42_word_case_partial",
    "Verif.Closest.C42_false"
   ],
   "note": "False: the query is not put in lower case. Proved that the case of the indexed words does not matter."
  },
  {
   "property": "C69",
   "status": "partial",
   "theorems": [
    "Verif.Closest.C69_round_trip_partial",
    "Verif.Closest.C69_ascii_partial",
    "Verif.Closest.C69_false"
   ],
   "note": "False: fragments that split a character become U+FFFD in JSON. Proved when all strings are valid UTF-8, and for ASCII words."
  },
  {
   "property": "C70",
   "status": "proved",
   "theorems": [
    "Verif.Closest.C36_no_deadlock",
    "Verif.Closest.C36_terminates"
   ],
   "note": ""
  },
  {
   "property": "C43",
   "status": "proved",
   "theorems": [
    "Verif.Repo.C43_scan_lists_entries"
   ],
   "note": ""
  },
  {
   "property": "C44",
   "status": "proved",
   "theorems": [
    "Verif.Repo.C44_git_ignored",
    "Verif.Repo.C44_git_root",
    "Verif.Repo.C44_root_name"
   ],
   "note": ""
  },
  {
   "property": "C45",
   "status": "partial",
   "theorems": [
    "Verif.Repo.C45_false",
    "Verif.Repo.C45_same_iff_partial",
    "Verif.Repo.C82_trailing_slash",
    "Verif.Repo.C43_scan_lists_entries"
   ],
   "note": "False: with a trailing slash in the root the paths lose a byte; what is listed instead is proved (C82), and the entries for a root without it (C43), and exactly for which stores both find the same (C45_same_iff_partial)."
  },
  {
   "property": "C46",
   "status": "partial",
   "theorems": [
    "Verif.Repo.C46_search_in_file_partial",
    "Verif.Repo.C46_long_line_false"
   ],
   "note": "False: a line of 65536 bytes or more silently ends the search. Proved for files whose lines are shorter."
  },
  {
   "property": "C47",
   "status": "proved",
   "theorems": [
    "Verif.Repo.C47_binary"
   ],
   "note": ""
  },
  {
   "property": "C48",
   "status": "partial",
   "theorems": [
    "Verif.Repo.C48_search_store_partial",
    "Verif.Repo.C48_other_directory_false",
    "Verif.Repo.C48_direct"
   ],
   "note": "False: paths are relative to the store but opened relative to the working directory. Proved when the working directory is the store."
  },
  {
   "property": "C49",
   "status": "partial",
   "theorems": [
    "Verif.Cmds.C49_setenv_partial",
    "Verif.Cmds.C49_environment_partial",
    "Verif.Cmds.C49_binary_false"
   ],
   "note": "False: an entry that is not text ends the command and later entries are not exported. Proved when the selected entries are text."
  },
  {
   "property": "C50",
   "status": "proved",
   "theorems": [
    "Verif.Cmds.C50_show",
    "Verif.Cmds.C50_show_prints"
   ],
   "note": "Any content of the entries."
  },
  {
   "property": "C51",
   "status": "partial",
   "theorems": [
    "Verif.Cmds.C51_qr_text_partial",
    "Verif.Cmds.C51_short_line_panics",
    "Verif.Cmds.C51_colon_cut",
    "Verif.Cmds.C51_space_left"
   ],
   "note": "False: crashes if the line with the given number is shorter than the field name; cuts every line at its first colon. Proved: the exact text and the exact crash condition."
  },
  {
   "property": "C52",
   "status": "partial",
   "theorems": [
    "Verif.Cmds.C52_insert_partial",
    "Verif.Cmds.C52_escape_false",
    "Verif.Cmds.C52_overwrite_false",
    "Verif.Cmds.C52_default_root_fails"
   ],
   "note": "False: names with .. write outside the store, the default root is not expanded. Proved for category/name entries in an existing category directory."
  },
  {
   "property": "C71",
   "status": "partial",
   "theorems": [
    "Verif.Repo.C71_scan_total_partial",
    "Verif.Repo.C81_panics_iff",
    "Verif.Repo.C71_file_root_panics",
    "Verif.Repo.C71_dot_root_panics"
   ],
   "note": "False: crashes if the root is a file, or is \".\" with a one-character file in it. The exact condition is proved (C81_panics_iff), and the other results."
  },
  {
   "property": "C72",
   "status": "proved",
   "theorems": [
    "Verif.Cmds.C72_grep_prints",
    "Verif.Cmds.C72_grep"
   ],
   "note": "Any content of the entries; the regular expressions are any predicate on lines."
  },
  {
   "property": "C73",
   "status": "partial",
   "theorems": [
    "Verif.Cmds.C73_search_partial",
    "Verif.Cmds.C73_negative_panics"
   ],
   "note": "False: a negative number of results crashes, and so does one of more than 2^44. Proved for the other numbers."
  },
  {
   "property": "C74",
   "status": "proved",
   "theorems": [
    "Verif.Cmds.C74_list"
   ],
   "note": ""
  },
  {
   "property": "C53",
   "status": "proved",
   "theorems": [
    "Verif.Glob.Runes.C53_index_rune",
    "Verif.Glob.Runes.C53_index",
    "Verif.Glob.Runes.C53_contains",
    "Verif.Glob.Runes.C53_index_any",
    "Verif.Glob.Runes.C53_equal",
    "Verif.Glob.Runes.C53_has_prefix",
    "Verif.Glob.Runes.C53_has_suffix",
    "Verif.Glob.Runes.C53_max",
    "Verif.Glob.Runes.C53_min"
   ],
   "note": ""
  },
  {
   "property": "C54",
   "status": "partial",
   "theorems": [
    "Verif.Glob.Runes.C54_index_last_rune",
    "Verif.Glob.Runes.C54_last_index_partial",
    "Verif.Glob.Runes.C54_false"
   ],
   "note": "False: LastIndex overlooks an occurrence at position 0 that is not the last one. Proved for the other occurrences."
  },
  {
   "property": "C60",
   "status": "proved",
   "theorems": [
    "Verif.Glob.C60_buffers_total",
    "Verif.Glob.C60_merge"
   ],
   "note": ""
  },
  {
   "property": "C61",
   "status": "partial",
   "theorems": [
    "Verif.Clipboard.C61_always_fails",
    "Verif.Clipboard.C61_false",
    "Verif.Clipboard.C61_selected_tool_partial",
    "Verif.Clipboard.C61_read_cuts"
   ],
   "note": "False: Unsupported is never cleared, so Write and Read always fail. Proved for a program that clears it."
  },
  {
   "property": "C55",
   "status": "proved",
   "theorems": [
    "Verif.Glob.C55_compile_total"
   ],
   "note": ""
  },
  {
   "property": "C56",
   "status": "proved",
   "theorems": [
    "Verif.Glob.C56_quote_meta",
    "Verif.Glob.C56_nul_false",
    "Verif.Glob.C56_ascii",
    "Verif.Glob.C56_ascii_self"
   ],
   "note": "C56_ascii: exactly what the glob of any ASCII text matches, U+0000 among its characters."
  },
  {
   "property": "C57",
   "status": "partial",
   "theorems": [
    "Verif.Glob.C57_flat_partial",
    "Verif.Glob.C57_documented_partial",
    "Verif.Glob.C57_checked_partial",
    "Verif.Glob.C57_false",
    "Verif.Glob.C57_class_false",
    "Verif.Glob.C57_separators_false",
    "Verif.Glob.C57_stars_false",
    "Verif.Glob.C57_panics",
    "Verif.Glob.C57_unicode_false",
    "Verif.Glob.C57_utf8_flat_partial",
    "Verif.Glob.C57_utf8_documented_partial",
    "Verif.Glob.C57_utf8_checked_partial",
    "Verif.Glob.C57_row_false",
    "Verif.Glob.C57_bytes_false",
    "Verif.Glob.C57_braces_partial",
    "Verif.Glob.C57_utf8_braces_partial",
    "Verif.Glob.C57_braces_case",
    "Verif.Glob.C57_factored_case",
    "Verif.Glob.C57_wide_partial",
    "Verif.Glob.C57_utf8_wide_partial",
    "Verif.Glob.C57_wide_case",
    "Verif.Glob.C57_length_false"
   ],
   "note": "False in general, with counterexamples. Proved for patterns that satisfy a condition on their terms (flat sequences, braces around them, nested braces, braces whose alternatives share a term, and such braces beside other terms if they have no common length: C57_wide_partial), and for every pattern whose compiled matcher passes a check: for ASCII subjects, and under stronger conditions for every valid UTF-8 subject. For other subjects it is false even then (C57_bytes_false), and proved of texts and stars (C91) and of single terms (C113)."
  },
  {
   "property": "C58",
   "status": "partial",
   "theorems": [
    "Verif.Glob.C58_partial",
    "Verif.Glob.C58_single_false",
    "Verif.Glob.C58_class_false"
   ],
   "note": "False of ? and of [!...] alone; proved of patterns with other terms besides."
  },
  {
   "property": "C59",
   "status": "partial",
   "theorems": [
    "Verif.Glob.C59_match",
    "Verif.Glob.C59_iff_partial",
    "Verif.Glob.C59_false"
   ],
   "note": "False if an end of p is a start of s; it is proved that it holds for p and s exactly if that is not so."
  },
  {
   "property": "C75",
   "status": "proved",
   "theorems": [
    "Verif.Glob.C75_parse_documented"
   ],
   "note": ""
  },
  {
   "property": "C76",
   "status": "proved",
   "theorems": [
    "Verif.Repo.C76_get_content",
    "Verif.Repo.C76_search",
    "Verif.Repo.C76_missing"
   ],
   "note": "Spec.Reads says what is read of a text; reads_exists and reads_unique show it is a function."
  },
  {
   "property": "C77",
   "status": "proved",
   "theorems": [
    "Verif.Repo.C77_search",
    "Verif.Repo.C77_error"
   ],
   "note": ""
  },
  {
   "property": "C78",
   "status": "proved",
   "theorems": [
    "Verif.Cmds.C78_show_qrcode"
   ],
   "note": ""
  },
  {
   "property": "C79",
   "status": "proved",
   "theorems": [
    "Verif.Cmds.C79_search"
   ],
   "note": "The limit 2^44 is that of the Go runtime for a slice of strings with 64-bit addresses; memory exhaustion below it is not modelled."
  },
  {
   "property": "C80",
   "status": "proved",
   "theorems": [
    "Verif.Cmds.C80_setenv",
    "Verif.Cmds.C80_variables",
    "Verif.Cmds.C80_name_upper",
    "Verif.Cmds.C80_name_trim"
   ],
   "note": ""
  },
  {
   "property": "C81",
   "status": "proved",
   "theorems": [
    "Verif.Repo.C81_scan_any_root",
    "Verif.Repo.C81_panics_iff"
   ],
   "note": "The paths of the walk are built by joining cleaned paths, as filepath.Walk does."
  },
  {
   "property": "C82",
   "status": "proved",
   "theorems": [
    "Verif.Repo.C82_trailing_slash"
   ],
   "note": ""
  },
  {
   "property": "C83",
   "status": "proved",
   "theorems": [
    "Verif.Clipboard.Windows.C83_write_releases",
    "Verif.Clipboard.Windows.C83_no_try"
   ],
   "note": "The clock must allow at least one try; C83_no_try shows what happens otherwise."
  },
  {
   "property": "C84",
   "status": "proved",
   "theorems": [
    "Verif.Clipboard.Windows.C84_write_reports"
   ],
   "note": ""
  },
  {
   "property": "C85",
   "status": "proved",
   "theorems": [
    "Verif.Clipboard.Windows.C85_write_panics"
   ],
   "note": ""
  },
  {
   "property": "C86",
   "status": "proved",
   "theorems": [
    "Verif.Clipboard.Windows.C86_read",
    "Verif.Clipboard.Windows.C86_read_succeeds_iff",
    "Verif.Clipboard.Windows.C86_unlock_zero"
   ],
   "note": "On a system where GlobalUnlock returns zero after the last unlock, as documented, Read never succeeds."
  },
  {
   "property": "C87",
   "status": "proved",
   "theorems": [
    "Verif.Clipboard.Windows.C87_round_trip"
   ],
   "note": ""
  },
  {
   "property": "C88",
   "status": "proved",
   "theorems": [
    "Verif.Clipboard.Exec.C88_copy_command",
    "Verif.Clipboard.Exec.C88_darwin",
    "Verif.Clipboard.Exec.C88_unix"
   ],
   "note": ""
  },
  {
   "property": "C89",
   "status": "partial",
   "theorems": [
    "Verif.Clipboard.Exec.C89_waited_iff_partial",
    "Verif.Clipboard.Exec.C89_false"
   ],
   "note": "False: if writing or closing the input fails Write returns while the command runs. Proved exactly when it waits."
  },
  {
   "property": "C90",
   "status": "proved",
   "theorems": [
    "Verif.Glob.C90_unclosed_braces",
    "Verif.Glob.C90_same_as_closed"
   ],
   "note": ""
  },
  {
   "property": "C91",
   "status": "proved",
   "theorems": [
    "Verif.Glob.C91_literals_and_stars",
    "Verif.Glob.C91_text_star_text"
   ],
   "note": ""
  },
  {
   "property": "C92",
   "status": "proved",
   "theorems": [
    "Verif.Glob.Heap.C92_results",
    "Verif.Glob.Heap.C92_no_race",
    "Verif.Glob.Heap.C92_can_end",
    "Verif.Glob.Heap.C92_shared_unchanged"
   ],
   "note": "Each array access and each pool operation is a step; steps of different goroutines interleave."
  },
  {
   "property": "C93",
   "status": "partial",
   "theorems": [
    "Verif.Glob.C93_no_braces_partial",
    "Verif.Glob.C93_plain_partial",
    "Verif.Glob.C93_checked_partial",
    "Verif.Glob.C93_checked_pattern_partial",
    "Verif.Glob.C93_false",
    "Verif.Glob.C93_separators_false"
   ],
   "note": "False in general (C93_false, C93_separators_false: AnyOf.Len ignores leading alternatives of variable length, so Row slices past the end; LastIndexAnyRunes slices past the end for a separator of several bytes). Proved for every pattern without an opening brace, with any separators and any bytes, and with ASCII separators for every pattern whose groups have no empty alternative (or a text beside it) and no alternative made only of what all alternatives share. For any other pattern a check of the compiled matcher (Matcher.safe: every row has parts of fixed positive length, ASCII separators wherever the last one is looked for), which the kernel can evaluate, suffices for all strings; patterns that fail it may or may not crash."
  },
  {
   "property": "C94",
   "status": "proved",
   "theorems": [
    "Verif.Closest.C94_search",
    "Verif.Closest.C94_new_crashes_iff"
   ],
   "note": "Spec: Closest/HistorySpec.lean. Identifiers are unbounded natural numbers (uint32 in the code)."
  },
  {
   "property": "C95",
   "status": "proved",
   "theorems": [
    "Verif.Closest.C95_exclusive",
    "Verif.Closest.C95_since",
    "Verif.Closest.C95_result",
    "Verif.Closest.C95_undisturbed",
    "Verif.Closest.C95_no_deadlock",
    "Verif.Closest.C95_terminates"
   ],
   "note": "Model: Closest/Shared.lean; Save is not part of it (it reads the index without the mutex)."
  },
  {
   "property": "C96",
   "status": "proved",
   "theorems": [
    "Verif.Main.C96_store",
    "Verif.Main.expandEnv_iff"
   ],
   "note": "Spec: Main/Spec.lean (Does, Expands). The command line is already parsed; paths are Unix paths."
  },
  {
   "property": "C97",
   "status": "partial",
   "theorems": [
    "Verif.Main.C97_root_partial",
    "Verif.Main.C97_root_ignored_false"
   ],
   "note": "False on linux, darwin and windows, where --root is overwritten. Proved for the other systems."
  },
  {
   "property": "C98",
   "status": "partial",
   "theorems": [
    "Verif.Main.C98_insert_found_partial",
    "Verif.Main.C98_not_listed_false",
    "Verif.Main.C98_insert_fails"
   ],
   "note": "False on linux and darwin: insert does not expand $HOME, so it fails, or writes elsewhere. Proved for the other systems and a root without variables, for an existing category directory and a source that is not the entry itself."
  },
  {
   "property": "C99",
   "status": "proved",
   "theorems": [
    "Verif.Main.C99_store_unchanged"
   ],
   "note": "Symbolic links and other programs are not modelled."
  },
  {
   "property": "C100",
   "status": "partial",
   "theorems": [
    "Verif.Main.C100_copies_partial",
    "Verif.Main.C100_self_false",
    "Verif.Main.C100_directory_false"
   ],
   "note": "False if F is the entry itself (it becomes empty) or a directory (an empty entry is created); proved for every other regular file. Read errors in the middle of the copy are in C119."
  },
  {
   "property": "C101",
   "status": "proved",
   "theorems": [
    "Verif.Main.C101_unchanged",
    "Verif.Main.C101_success"
   ],
   "note": ""
  },
  {
   "property": "C102",
   "status": "partial",
   "theorems": [
    "Verif.GlobSearch.C102_documented",
    "Verif.GlobSearch.C102_quoted",
    "Verif.GlobSearch.C102_no_crash_partial",
    "Verif.GlobSearch.C102_crash_iff",
    "Verif.GlobSearch.C102_crash_false",
    "Verif.GlobSearch.C102_braces_partial",
    "Verif.GlobSearch.C102_utf8_partial",
    "Verif.GlobSearch.C102_braces_case",
    "Verif.GlobSearch.C102_wide_partial",
    "Verif.GlobSearch.C102_utf8_wide_partial",
    "Verif.GlobSearch.C102_wide_case"
   ],
   "note": "False in general: a query that compiles, {a*,a}, crashes the search (C102_crash_false). Proved: the documented language for queries of characters, * and ** as in C91; queries as in C57 (flat sequences, braces) on files whose lines are ASCII or valid UTF-8; quoted texts; without an opening brace no crash and exactly the lines the matcher accepts; and exactly when the search crashes. The agreement of the matcher with the documentation for other queries is that of C57/C59/C75."
  },
  {
   "property": "C103",
   "status": "proved",
   "theorems": [
    "Verif.Closest.C103_accuracy_words",
    "Verif.Closest.C103_new_panics_iff"
   ],
   "note": "Random numbers are arbitrary (the program seeds its generator with 1, so it draws one of the modelled sequences); the float64 value is given as the pair correct/trials."
  },
  {
   "property": "C104",
   "status": "proved",
   "theorems": [
    "Verif.Closest.C104_accuracy_letters",
    "Verif.Closest.C104_one_word"
   ],
   "note": "As C103. The theorem shows a defect: for any index some sequence of draws makes the function panic (draw 0 selects no word, and then rand.Intn(0) is called)."
  },
  {
   "property": "C105",
   "status": "proved",
   "theorems": [
    "Verif.Clipboard.Session.C105_session",
    "Verif.Clipboard.Session.C105_chosen"
   ],
   "note": "Model: Clipboard/Session.lean (the package variables persist between calls)."
  },
  {
   "property": "C106",
   "status": "proved",
   "theorems": [
    "Verif.FormGen.C106_form_exact"
   ],
   "note": "Model: FormGen/Model.lean; specification of filling a form: FormGen/FormSpec.lean."
  },
  {
   "property": "C107",
   "status": "proved",
   "theorems": [
    "Verif.FormGen.C107_prog",
    "Verif.FormGen.C107_form_uniform",
    "Verif.FormGen.C107_form_probability",
    "Verif.FormGen.C107_mixed_unique_repeats"
   ],
   "note": "Draws of crypto/rand.Int taken uniform and independent (C07). GenerateCmd.prog is the command as a random computation, C107_prog links it to the run on a byte stream. C107_mixed_unique_repeats shows why --mixed with --unique is excluded."
  },
  {
   "property": "C108",
   "status": "proved",
   "theorems": [
    "Verif.Password.C108_negative_counts",
    "Verif.Password.C108_possible"
   ],
   "note": "Complements C08: what the code does for all integers."
  },
  {
   "property": "C109",
   "status": "proved",
   "theorems": [
    "Verif.Crypter.C109_new64_encrypt",
    "Verif.Crypter.C109_new64_decrypt"
   ],
   "note": "Complements C16: what the byte methods of a New64 cipher do."
  },
  {
   "property": "C110",
   "status": "proved",
   "theorems": [
    "Verif.QR.C110_encode",
    "Verif.QR.C110_crash_iff",
    "Verif.QR.C110_short_text"
   ],
   "note": "Complements C35: the table of ISO/IEC 18004 for version 40."
  },
  {
   "property": "C111",
   "status": "proved",
   "theorems": [
    "Verif.Closest.C111_round_trip_iff",
    "Verif.Closest.C111_second_round_trip"
   ],
   "note": "Complements C69: the exact condition. JSON, gzip and the file system are taken to give back what was written but for strings that are not UTF-8."
  },
  {
   "property": "C112",
   "status": "proved",
   "theorems": [
    "Verif.Crypter.C112_new",
    "Verif.Crypter.C112_encrypt",
    "Verif.Crypter.C112_decrypt",
    "Verif.Crypter.C112_unusable"
   ],
   "note": "Complements C19. base64 of the Go library is modelled by hand, the encoder checked against RFC 4648."
  },
  {
   "property": "C113",
   "status": "proved",
   "theorems": [
    "Verif.Glob.C113_one_term"
   ],
   "note": "Complements C57 and C58 for strings that are not UTF-8."
  },
  {
   "property": "C114",
   "status": "proved",
   "theorems": [
    "Verif.Glob.Runes.C114_last_index"
   ],
   "note": "Complements C54."
  },
  {
   "property": "C115",
   "status": "proved",
   "theorems": [
    "Verif.Glob.C59_match"
   ],
   "note": "Complements C59."
  },
  {
   "property": "C116",
   "status": "proved",
   "theorems": [
    "Verif.Main.C116_clip",
    "Verif.Main.C116_delivered",
    "Verif.Main.C116_printable"
   ],
   "note": "Composition of the models of generate and of the three clipboard implementations."
  },
  {
   "property": "C117",
   "status": "partial",
   "theorems": [
    "Verif.Glob.Tool.C117_globtest",
    "Verif.Glob.Tool.C117_listed_partial",
    "Verif.Glob.Tool.C117_none",
    "Verif.Glob.Tool.C117_false",
    "Verif.Glob.Tool.C117_globdraw"
   ],
   "note": "False of globtest without -s: it then uses the separator U+FFFD, and prints false for ab*ba and aba, which the library matches without separators. Proved for every list that is not empty, with the exact result for all lists; and for globdraw."
  },
  {
   "property": "C118",
   "status": "proved",
   "theorems": [
    "Verif.Password.C118_concurrent",
    "Verif.Password.C118_conforms",
    "Verif.Password.C118_nonblocking"
   ],
   "note": "One read of the source is one step; the reader itself must be safe for concurrent use (as rand.Reader is). The generator is only read."
  },
  {
   "property": "C119",
   "status": "partial",
   "theorems": [
    "Verif.Main.C119_crash_partial",
    "Verif.Main.C119_completes",
    "Verif.Main.C119_atomic_false",
    "Verif.Main.C119_error_hidden_false",
    "Verif.Main.C119_mixed_false",
    "Verif.Main.C119_hole_false"
   ],
   "note": "False: the entry is truncated first, errors of the copy are ignored, and two inserts of one entry mix. Proved for inserts of different entries: other files are unchanged, the entry is the old one or a part of the new text from its start, all of it if the copy ended without failures."
  },
  {
   "property": "C120",
   "status": "partial",
   "theorems": [
    "Verif.Password.C120_exact",
    "Verif.Password.C120_integers_partial",
    "Verif.Password.C120_length",
    "Verif.Password.C120_false"
   ],
   "note": "False: the subtraction wraps around (2^63-1 digits and symbols in a password of length 0 are not rejected as too long; -2^63 of both give a password). Proved: exactly which request is executed, that it is the right one if length-numDigits-numSymbols fits into 64 bits, and that without negative counts no password of a wrong length below 2^63 comes out."
  },
  {
   "property": "C121",
   "status": "partial",
   "theorems": [
    "Verif.Crypter.Shared.C121_separate_partial",
    "Verif.Crypter.Shared.C121_false"
   ],
   "note": "False for Encrypt and Decrypt of one cipher: they share its scratch buffers, and a goroutine can get the ciphertext of the other's block. Proved for every schedule: it holds if no two calls use the byte methods of the same cipher (the word methods may share one). Memory is sequentially consistent; nobody sets the tweak meanwhile."
  },
  {
   "property": "C122",
   "status": "partial",
   "theorems": [
    "Verif.Crypter.C122_encrypt",
    "Verif.Crypter.C122_decrypt",
    "Verif.Crypter.C122_encrypt64",
    "Verif.Crypter.C122_decrypt64",
    "Verif.Crypter.C122_set",
    "Verif.Crypter.C122_survives_partial",
    "Verif.Crypter.C122_returns",
    "Verif.Crypter.C122_false"
   ],
   "note": "Proved for the four block methods, with exactly what has been written. False for SetKey and SetTweak: a key or tweak that is too short is stored in part before the panic, and the cipher encrypts differently afterwards. C122_returns: calls that return are those of the other theorems."
  },
  {
   "property": "C123",
   "status": "partial",
   "theorems": [
    "Verif.Repo.C123_scan_partial",
    "Verif.Repo.C123_plain",
    "Verif.Repo.C123_any_root",
    "Verif.Repo.C123_other_roots",
    "Verif.Repo.C123_root_link_false"
   ],
   "note": "Proved for a cleaned root that is a directory, with the exact result for every other way to write it and every other kind of root. False for a root that is a link (without a slash at the end): filepath.Walk does not follow it, and path[n:] panics, wherever it leads."
  },
  {
   "property": "C124",
   "status": "partial",
   "theorems": [
    "Verif.Repo.C124_pieces_partial",
    "Verif.Repo.C124_file_partial",
    "Verif.Repo.C124_error_hidden_false"
   ],
   "note": "Proved: bufio.Scanner, with its buffer (shifting, growing from 4096 to 65536 bytes), delivers scannerLines for every sequence of read sizes. False: a read error is taken for the end of the file, the truncated line is delivered and nil is returned (scanner.Err is not called)."
  },
  {
   "property": "C125",
   "status": "partial",
   "theorems": [
    "Verif.Main.C125_agrees",
    "Verif.Main.C125_stdout_partial",
    "Verif.Main.C125_names_false",
    "Verif.Main.C125_failed_partial",
    "Verif.Main.C125_show",
    "Verif.Main.C125_setenv",
    "Verif.Main.C125_list"
   ],
   "note": "Proved for all commands except that list, and search without a content, print the names with the built-in println, i.e. to standard error (C125_names_false: their standard output is always empty), and that show and setenv have printed before they fail (C125_show, C125_setenv say exactly what). The texts of error messages are not modelled."
  },
  {
   "property": "C126",
   "status": "partial",
   "theorems": [
    "Verif.Glob.C126_globdraw_partial",
    "Verif.Glob.C126_draw_partial",
    "Verif.Glob.C126_negation",
    "Verif.Glob.C126_case",
    "Verif.Glob.C126_percent_false",
    "Verif.Glob.C126_quote_false",
    "Verif.Glob.dot_injective"
   ],
   "note": "False: the text of a branch is used as a format of fmt.Fprintf, so a percent sign becomes %!c(MISSING), and quotation marks are not escaped. Proved for all patterns and separator lists without percent signs, quotation marks and backslashes, if the random numbers for the nodes are different."
  },
  {
   "property": "C127",
   "status": "partial",
   "theorems": [
    "Verif.QR.C127_newPlan_partial",
    "Verif.QR.C127_newPlan_valid_partial",
    "Verif.QR.C127_negative_mask",
    "Verif.QR.C127_negative_mask_false",
    "Verif.QR.C127_dataBytes",
    "Verif.QR.C127_encode_partial",
    "Verif.QR.C127_generate",
    "Verif.QR.C127_addCheckBytes"
   ],
   "note": "False: only wrong versions are errors. A level that does not exist and a mask above 7 crash (proved exactly when), DataBytes of version 0 is 0, and a negative mask is accepted: its symbols hold the texts unmasked but announce a mask, and level Q for masks -8 to -1, so a reader cannot read them."
  },
  {
   "property": "C128",
   "status": "partial",
   "theorems": [
    "Verif.QR.C128_write_partial",
    "Verif.QR.C128_write_keeps",
    "Verif.QR.C128_write_whole_bytes",
    "Verif.QR.C128_write_false",
    "Verif.QR.C128_pad",
    "Verif.QR.C128_encode_length",
    "Verif.QR.C128_encode_false",
    "Verif.QR.C128_encode_alpha_false",
    "Verif.QR.encodeU_checked"
   ],
   "note": "False: a value wider than n is ORed into the bits of the unfinished last byte (C128_write_false, exact effect in C128_write_partial); whole bytes are never changed, nothing is if the value fits or the buffer is byte-aligned. Pad with more than 4 bits appends n only if that fills the last byte, and crashes for negative n. Segments that Check rejects append the right number of bits but may change bits before."
  },
  {
   "property": "C129",
   "status": "proved",
   "theorems": [
    "Verif.QR.Words.C129_pixel",
    "Verif.QR.Words.C129_string",
    "Verif.QR.Words.C129_string_case",
    "Verif.QR.Words.C129_plan",
    "Verif.QR.Words.C129_encode",
    "Verif.QR.Words.C129_case"
   ],
   "note": "NewPlan and Plan.Encode modelled a second time on 32-bit words, with the shifts, masks, additions and xors of the source; proved to simulate the record model of C30 ff. (C129_encode). Masks 0 to 7 only (other masks: C127 on the record model). uint is 64 bits."
  },
  {
   "property": "C130",
   "status": "proved",
   "theorems": [
    "Verif.QR.Out.C130_offered",
    "Verif.QR.Out.C130_no_code",
    "Verif.QR.Out.C130_complete",
    "Verif.QR.Out.C130_full_disk",
    "Verif.QR.Out.C130_lossy",
    "Verif.QR.Out.C130_nil",
    "Verif.QR.Out.C130_gap",
    "Verif.QR.Out.C130_case"
   ],
   "note": "C130_offered: the pieces, for every writer. C130_gap: for every text with a code there is one call whose failure alone leaves a gap in the middle; Generate returns as usual."
  },
  {
   "property": "C131",
   "status": "partial",
   "theorems": [
    "Verif.Password.C131_bytes_partial",
    "Verif.Password.C131_characters_partial",
    "Verif.Password.C131_one_symbol_partial",
    "Verif.Password.C131_false"
   ],
   "note": "False: bytes are chosen, not characters, and turned into the character with that code; insertions may tear such a character apart, and then a repeat is not noticed (C131_false). Proved for all alphabets: which bytes a password consists of, exactly length of them not continuation bytes, its ASCII characters are in the alphabets; a single symbol of any alphabet among ASCII characters stays whole. For ASCII alphabets: C01 to C03."
  },
  {
   "property": "C132",
   "status": "proved",
   "theorems": [
    "Verif.FormGen.C132_printable",
    "Verif.FormGen.C132_alpha",
    "Verif.FormGen.C132_unique"
   ],
   "note": "Complements C11 and C62: exactly which forms. Spec: Slots, Unrepeated, AlphaOk, SafeForm in FormGen/Exact.lean."
  },
  {
   "property": "C133",
   "status": "proved",
   "theorems": [
    "Verif.QR.C133_damaged_picture",
    "Verif.QR.C133_reader_exists",
    "Verif.QR.C133_few_modules",
    "Verif.QR.C133_three_modules",
    "Verif.QR.C133_formats_differ",
    "Verif.QR.C133_texts_differ",
    "Verif.QR.C133_codes_differ"
   ],
   "note": "Extends C24 and C67 (bytes) to modules, unreadable modules and the format information. Spec: QR/DamageSpec.lean. The size is taken as known from the picture."
  },
  {
   "property": "C134",
   "status": "proved",
   "theorems": [
    "Verif.Password.C134_number",
    "Verif.Password.C134_probability",
    "Verif.Password.C134_guessing",
    "Verif.Password.C134_default"
   ],
   "note": "Spec: ways, passwords (Password/Strength.lean), Conforms, Prog.prob (Password/Spec.lean). Draws of crypto/rand.Int are uniform and independent, as in C06; alphabets are ASCII."
  },
  {
   "property": "C135",
   "status": "proved",
   "theorems": [
    "Verif.FormGen.C135_probability",
    "Verif.FormGen.C135_others",
    "Verif.FormGen.C135_bound",
    "Verif.FormGen.C135_guessing",
    "Verif.FormGen.C135_only_a",
    "Verif.FormGen.C135_repeats",
    "Verif.FormGen.C135_counterexample",
    "Verif.FormGen.C135_unique",
    "Verif.FormGen.C135_unique_bound",
    "Verif.FormGen.C135_unique_guessing",
    "Verif.FormGen.C135_unique_only_a",
    "Verif.FormGen.C135_mixed_unique",
    "Verif.FormGen.C135_mixed_unique_bound",
    "Verif.FormGen.C135_others_all",
    "Verif.FormGen.C135_printed"
   ],
   "note": "Spec: Slots (FormGen/Exact.lean), printedForA, asked (FormGen/FormStrength.lean), passwords (Password/Strength.lean), lettersIn, digitsIn, symbolsIn (FormSpec). Draws uniform and independent as in C06. C135_counterexample: `a` is not an independent choice (finding). With --unique: places, caseWays, printedForX (FormGen/UniqueStrength.lean); probDone is the probability that the retries of the model suffice, which tends to 1 (C135_printed)."
  },
  {
   "property": "C136",
   "status": "proved",
   "theorems": [
    "Verif.Closest.C136_short",
    "Verif.Closest.C136_portions",
    "Verif.Closest.C136_search",
    "Verif.Closest.C136_found",
    "Verif.Closest.C136_lastSame",
    "Verif.Closest.C136_lost",
    "Verif.Closest.C136_counterexample"
   ],
   "note": "Spec: portions, lastSame (Closest/Wrap.lean), Idx and history (Closest/HistorySpec.lean). Lists of up to 2^63 words (an int index). C136_counterexample is a finding of the same kind as C40."
  },
  {
   "property": "C137",
   "status": "proved",
   "theorems": [
    "Verif.Glob.C137_bound",
    "Verif.Glob.C137_slow",
    "Verif.Glob.C137_exponential",
    "Verif.Glob.C137_no_degree"
   ],
   "note": "The number of calls of Match and Index of matchers of all kinds (Glob/Cost.lean), counted along the loops of the code with their early returns; the work inside one call of a matcher that calls no other (a search in a string, a loop over its runes) is not counted. The panics of Match are C57's; a call that panics ends the count."
  },
  {
   "property": "C138",
   "status": "proved",
   "theorems": [
    "Verif.Password.C138_average",
    "Verif.Password.C138_tail",
    "Verif.Password.C138_exponential",
    "Verif.Password.C138_default_tail",
    "Verif.Password.C138_every_run",
    "Verif.Password.C138_default"
   ],
   "note": "The model bounds the retries for one character by fuel; the statements hold for every fuel and the lower bound of C138_average makes the average converge to the formula as fuel grows. The bytes rand.Int reads for one number (its own rejection sampling, C07) are counted in C154."
  },
  {
   "property": "C139",
   "status": "proved",
   "theorems": [
    "Verif.Glob.C139_reads",
    "Verif.Glob.C139_accepts",
    "Verif.Glob.C139_replacement",
    "Verif.Glob.C139_no_class",
    "Verif.Glob.C139_nul_ends"
   ],
   "note": "readPattern and treeOf in Glob/Reader.lean are the specification: a reader over the list of characters. Which error is returned is not compared, only that there is one. C57 and C93 say what the tree matches."
  },
  {
   "property": "C140",
   "status": "proved",
   "theorems": [
    "Verif.Main.C140_ends",
    "Verif.Main.C140_session",
    "Verif.Main.C140_crashes",
    "Verif.Main.C140_no_store",
    "Verif.Password.C140_generate",
    "Verif.Password.C140_same_result"
   ],
   "note": "The models of the commands are relations between arguments and possible results (map order, equal scores); this shows that they are never empty, so that the theorems about all results (C72 to C80, C96) are about results that exist. show --qrcode is C78, and C35 for the drawing. Memory exhaustion and system errors other than those of the tree are not modelled. With an alphabet of one character Generate may retry forever (C09)."
  },
  {
   "property": "C141",
   "status": "partial",
   "theorems": [
    "Verif.Glob.C141_language",
    "Verif.Glob.C141_order_partial",
    "Verif.Glob.C141_utf8_partial",
    "Verif.Glob.C141_order_case",
    "Verif.Glob.C141_order_false"
   ],
   "note": "False in general: src/{*.go,README} does not match src/main.go, src/{README,*.go} does, because AnyOf.Len ignores a first alternative without a length (C141_order_false, C57_length_false). True of the documented language (C141_language), and of Match for patterns that meet the conditions of C57_wide_partial in both orders: ASCII subjects, and valid UTF-8 under the stronger conditions."
  },
  {
   "property": "C142",
   "status": "proved",
   "theorems": [
    "Verif.Glob.C142_total",
    "Verif.Glob.C142_parse",
    "Verif.Glob.C142_bound",
    "Verif.Glob.C142_at_least",
    "Verif.Glob.C142_case"
   ],
   "note": "Steps are counted by functions that follow the loops, early returns and short-circuit evaluation of lexer.go, parser.go and compiler.go (Glob/ParseCost.lean, Glob/CompileCost.lean). Not counted: comparisons of runes, conversions and copies of strings and slices."
  },
  {
   "property": "C143",
   "status": "proved",
   "theorems": [
    "Verif.Repo.C143_scan",
    "Verif.Repo.C143_ends",
    "Verif.Repo.C143_terminates",
    "Verif.Repo.C143_unchanged",
    "Verif.Repo.C143_snapshot",
    "Verif.Repo.C143_moved",
    "Verif.Repo.C143_terminates_false"
   ],
   "note": "Assumed of reading a directory while it changes: the names come sorted (Walk sorts them) and without duplicates, each was there at some moment of the reading, and one that is there all the time is not missed; names that come or go may or may not be returned, as in POSIX. C143_moved and C143_terminates_false are findings: a file that is renamed during the scan may be listed twice or not at all or end the program, and Scan never ends in a store in which directories are nested faster than it can follow."
  },
  {
   "property": "C144",
   "status": "proved",
   "theorems": [
    "Verif.Closest.C144_writes",
    "Verif.Closest.C144_between",
    "Verif.Closest.C144_crash",
    "Verif.Closest.C144_quiet",
    "Verif.Closest.C144_at_once",
    "Verif.Closest.C144_never_crashes_false",
    "Verif.Closest.C144_moment_false"
   ],
   "note": "Single reads and writes of the maps are atomic in the model; that the Go runtime may abort a program in which a map is read and written at the same time is not modelled. The theorems speak of what is written to the file; what JSON then does to strings that are not UTF-8 is C69 and C111. C144_never_crashes_false and C144_moment_false are findings."
  },
  {
   "property": "C145",
   "status": "partial",
   "theorems": [
    "Verif.Glob.C145_language",
    "Verif.Glob.C145_order_stars",
    "Verif.Glob.C145_stars_partial",
    "Verif.Glob.C145_wide_partial",
    "Verif.Glob.C145_utf8_partial",
    "Verif.Glob.C145_case",
    "Verif.Glob.C145_order_false",
    "Verif.Glob.C145_absent_false"
   ],
   "note": "False in general: IndexAnyRunes looks for the first separator of the list, not the first in the subject, so *? with / and . matches ./ but with . and / it does not (C145_order_false); ab*ba matches aba without separators and not with / (C145_absent_false). True of the documented language (C145_language). Proved of Match: order and repetition for every pattern of characters and stars as in C91, on strings of any bytes (C145_order_stars); with other separators too where C91's exception does not apply (C145_stars_partial); for patterns that meet the conditions of C57_wide_partial with both lists, on ASCII and on valid UTF-8."
  },
  {
   "property": "C146",
   "status": "partial",
   "theorems": [
    "Verif.Glob.C146_first_none",
    "Verif.Glob.C146_first",
    "Verif.Glob.C146_first_partial",
    "Verif.Glob.C146_first_false",
    "Verif.Glob.C146_last_none",
    "Verif.Glob.C146_last_ascii",
    "Verif.Glob.C146_last_other",
    "Verif.Glob.C146_last_panics",
    "Verif.Glob.C146_last_partial",
    "Verif.Glob.C146_last_false"
   ],
   "note": "False: both look for the runes of the list in turn, so of several runes not the first in the string is found but the first in the list (C146_first_false); and for a rune that is not ASCII LastIndexAnyRunes searches the whole string again in every turn, so it returns the first position or panics (C146_last_false). Proved exactly what both return: -1 iff no rune occurs (C146_first_none, C146_last_none), else the first position of the first listed rune that occurs (C146_first), or its last if ASCII (C146_last_ascii); if not ASCII, with first position j, it is j if j+1 divides len(s), else a panic (C146_last_other), and these are all the panics (C146_last_panics). The claim as stated is proved for lists of one rune, for the last position an ASCII one (C146_first_partial, C146_last_partial). Lists of several runes of which only one occurs follow from C146_first."
  },
  {
   "property": "C147",
   "status": "proved",
   "theorems": [
    "Verif.Closest.Json.C147_text",
    "Verif.Closest.Json.C147_unique",
    "Verif.Closest.Json.C147_read",
    "Verif.Closest.Json.C147_round_trip",
    "Verif.Closest.Json.C147_ascii",
    "Verif.Closest.Json.C147_cut"
   ],
   "note": "The encoder (escapes, sorted keys, decimal numbers) and the decoder (recursive descent over the text, then the fields) are models of encoding/json, which is not in the repository; the escapes \\b and \\f, which newer Go releases write, are covered either way, and so is a nil list of sizes. The decoder reads texts without white space between tokens, integers without fraction or exponent, and exact field names; this is all that Save writes."
  },
  {
   "property": "C148",
   "status": "partial",
   "theorems": [
    "Verif.Closest.Json.C148_all_or_error_partial",
    "Verif.Closest.Json.C148_ok_partial",
    "Verif.Closest.Json.C148_nil_iff",
    "Verif.Closest.Json.C148_not_created",
    "Verif.Closest.Json.C148_nil_false",
    "Verif.Closest.Json.C148_old_lost_false"
   ],
   "note": "Proved: whatever fails and whenever the process is killed, Load gives the old index (only until the file is created anew), an error, or the whole new index, never a part (C148_all_or_error_partial); without failures Save returns nil and Load gives the index (C148_ok_partial, C147_read). False: Save ignores the error of closing the gzip writer, which writes most or all of the data, so nil can be returned although the file cannot be loaded (C148_nil_false; C148_nil_iff says exactly when nil is returned), and os.Create truncates the file first, so a crash leaves neither the old nor the new index (C148_old_lost_false). gzip is a parameter with two laws (a whole file delivers the text, a cut file a beginning of it), met by an instance; file-system reordering of writes in a power failure is not modelled."
  },
  {
   "property": "C149",
   "status": "partial",
   "theorems": [
    "Verif.Closest.Json.C149_search_partial",
    "Verif.Closest.Json.C149_add_partial",
    "Verif.Closest.Json.C149_maps",
    "Verif.Closest.Json.C149_saved",
    "Verif.Closest.Json.C149_false"
   ],
   "note": "True of files that Save wrote: all maps are there, Add does what it does to an index made by New (C149_saved; searches: C147_read and C41). False of others: null gives the nil pointer without an error, {} gives nil maps, to which Add assigns, and a fragment with an empty set divides by zero (C149_false). Proved for any JSON value with sizes that are not negative exactly when a search (C149_search_partial) and when Add crashes (C149_add_partial); negative sizes crash every search and Add, but for sizes near -2^63 (C41_negative_crashes). Numbers are unbounded in the model, field names must be spelled as in the struct, and a repeated list of sizes replaces the first."
  },
  {
   "property": "C150",
   "status": "proved",
   "theorems": [
    "Verif.Glob.C150_extensions",
    "Verif.Glob.C150_alternatives",
    "Verif.Glob.C150_case"
   ],
   "note": "Stated with the texts alone, without the terms of the documented syntax (C57). Texts are ASCII; subjects and separators need not be."
  },
  {
   "property": "C151",
   "status": "partial",
   "theorems": [
    "Verif.Glob.C151_index_partial",
    "Verif.Glob.C151_case",
    "Verif.Glob.C151_row_case",
    "Verif.Glob.C151_false",
    "Verif.Glob.C151_utf8_partial",
    "Verif.Glob.C151_utf8_case",
    "Verif.Glob.C151_utf8_false"
   ],
   "note": "Proved of ASCII strings for Nothing, Text, Super, Single, List, Range, Min (at least 1), Max, Contains (a negated one with a needle), Prefix, Suffix, PrefixSuffix whose suffix does not occur in the prefix but at its end, Any, PrefixAny and SuffixAny with at most one separator, AnyOf of these, and Row of parts that match strings of one positive length only, which Len returns, and whose Match is right (texts, single characters, their rows and alternatives). False of PrefixSuffix and of several separators otherwise, of BTree, whose Index is always -1, of EveryOf, which looks only at the first position of each part, and of strings that are not UTF-8 (C151_false). For strings in UTF-8 (C151_utf8_partial) the same, with positions between characters, if the texts and separators are valid UTF-8, a negated Contains has one character, the separator of SuffixAny is ASCII (C151_utf8_false otherwise) and rows have ASCII parts. Not covered: rows of other parts, where Len is wrong (C93) or Match confuses bytes and characters (C57)."
  },
  {
   "property": "C152",
   "status": "proved",
   "theorems": [
    "Verif.Password.C152_in_turn",
    "Verif.Password.C152_independent",
    "Verif.Password.C152_others_known",
    "Verif.Password.C152_collision",
    "Verif.Password.C152_pair",
    "Verif.Password.C152_case"
   ],
   "note": "Draws of crypto/rand.Int uniform and independent, as in C06. Spec: Prog.expect (Password/Spec.lean), Request, several (Password/Several.lean), passwords (Password/Strength.lean)."
  },
  {
   "property": "C153",
   "status": "proved",
   "theorems": [
    "Verif.Password.C153_bytes",
    "Verif.Password.C153_probability",
    "Verif.Password.C153_enough",
    "Verif.Password.C153_guessing",
    "Verif.Password.C153_case",
    "Verif.FormGen.C153_form",
    "Verif.FormGen.C153_form_uniform"
   ],
   "note": "crypto/rand.Int is the model of C07 (blocks, mask, rejection). The statement holds for every bound on the retries of the model; on a source of L bytes a large enough bound is never reached (C140)."
  },
  {
   "property": "C154",
   "status": "proved",
   "theorems": [
    "Verif.Password.C154_average",
    "Verif.Password.C154_enough",
    "Verif.Password.C154_generate",
    "Verif.Password.C154_default",
    "Verif.Password.C154_exponential",
    "Verif.Password.C154_default_tail"
   ],
   "note": "Concrete case: the largest default request (C154_default)."
  },
  {
   "property": "C155",
   "status": "proved",
   "theorems": [
    "Verif.Closest.C155_words",
    "Verif.Closest.C155_sizes",
    "Verif.Closest.C155_query",
    "Verif.Closest.C155_case",
    "Verif.Closest.C155_third_word"
   ],
   "note": "Concrete cases: C155_case and C155_third_word."
  },
  {
   "property": "C156",
   "status": "proved",
   "theorems": [
    "Verif.Closest.C156_more",
    "Verif.Closest.C156_same_scores"
   ],
   "note": "Concrete case: C156_case."
  },
  {
   "property": "C157",
   "status": "proved",
   "theorems": [
    "Verif.QR.C157_determines",
    "Verif.QR.C157_equal_glyphs"
   ],
   "note": "Concrete case: C157_case."
  },
  {
   "property": "C158",
   "status": "proved",
   "theorems": [
    "Verif.Glob.C158_escape",
    "Verif.Glob.C158_class_false"
   ],
   "note": "Concrete case: C158_case."
  },
  {
   "property": "C159",
   "status": "proved",
   "theorems": [
    "Verif.Cmds.C159_list",
    "Verif.Cmds.C159_search",
    "Verif.Cmds.C159_show",
    "Verif.Cmds.C159_setenv",
    "Verif.Cmds.C159_listed"
   ],
   "note": "Concrete case: C159_case."
  },
  {
   "property": "C160",
   "status": "proved",
   "theorems": [
    "Verif.Glob.C160_stars",
    "Verif.Glob.C160_empty"
   ],
   "note": "The exception is a defect: ** and *** should match the same strings (C57_stars_false). Concrete case: C160_case."
  },
  {
   "property": "C161",
   "status": "proved",
   "theorems": [
    "Verif.Main.C161_value",
    "Verif.Main.C161_number",
    "Verif.Main.C161_field_false"
   ],
   "note": "The restrictions are defects of the code: it cuts at the first colon whether or not it belongs to a field name, and does so after trimming. Concrete case: C161_case."
  },
  {
   "property": "C162",
   "status": "partial",
   "theorems": [
    "Verif.Cmds.C162_list",
    "Verif.Cmds.C162_grep_partial",
    "Verif.Cmds.C162_grep_false",
    "Verif.Cmds.C162_show_partial",
    "Verif.Cmds.C162_show_binary_false",
    "Verif.Cmds.C162_show_newline_false"
   ],
   "note": "Proved for list in full, for grep with names without newlines, and for show without --line of text entries with such names. False for show of a binary entry, which looks like a text entry with the error message in it (C162_show_binary_false). False for grep otherwise: an entry a'\\n1: x can look like a match in an entry a (C162_grep_false)."
  },
  {
   "property": "C163",
   "status": "proved",
   "theorems": [
    "Verif.Cmds.C163_show_line",
    "Verif.Cmds.C163_show_numbered",
    "Verif.Cmds.C163_code"
   ],
   "note": "A match of grep is Spec.Match (entry, number, line, pattern), which C72 and C162 connect with what grep prints. In a binary entry grep finds nothing."
  },
  {
   "property": "C164",
   "status": "partial",
   "theorems": [
    "Verif.Cmds.C164_only",
    "Verif.Cmds.C164_full_name_partial",
    "Verif.Cmds.C164_show_partial",
    "Verif.Cmds.C164_shortest_partial",
    "Verif.Cmds.C164_hidden",
    "Verif.Cmds.C164_false"
   ],
   "note": "The full statement is false of the code (C164_false: a store where show never prints an entry, not even with its full name). C164_only says for every store and name exactly when an entry is the only best match, C164_full_name_partial and C164_shortest_partial when the full name suffices."
  },
  {
   "property": "C165",
   "status": "proved",
   "theorems": [
    "Verif.Cmds.C165_match",
    "Verif.Cmds.C165_show",
    "Verif.Cmds.C165_show_same",
    "Verif.Cmds.C165_search",
    "Verif.Cmds.C165_related_false"
   ],
   "note": "Where several entries are best matches show may print any of them (the order of Go's maps), so C165_show says that the result is one of the first store's."
  },
  {
   "property": "C166",
   "status": "proved",
   "theorems": [
    "Verif.Cmds.C166_show",
    "Verif.Cmds.C166_deterministic",
    "Verif.Cmds.C166_either",
    "Verif.Cmds.C166_show_qrcode",
    "Verif.Cmds.C166_search",
    "Verif.Cmds.C166_list",
    "Verif.Cmds.C166_list_category",
    "Verif.Cmds.C166_grep"
   ],
   "note": "Possible means for some iteration order of the maps, which the Go language leaves open (an actual runtime may not produce all of them)."
  },
  {
   "property": "C167",
   "status": "partial",
   "theorems": [
    "Verif.Cmds.C167_setenv",
    "Verif.Cmds.C167_values",
    "Verif.Cmds.C167_named",
    "Verif.Cmds.C167_variable",
    "Verif.Cmds.C167_false"
   ],
   "note": "False of the code without a name (C167_false); C167_setenv has all possible results, C167_values all possible values of a variable, C167_named and C167_variable say where the values are determined."
  }
 ]
}