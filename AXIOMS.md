# Axioms of the property theorems

Output of `#print axioms`, grouped (`tools/axioms.py`).

## none

C62_plain

## propext

C37_own_cat, C77_safe_calls, C89_leak

## Quot.sound, propext

C39_duplicates, C42_overflow, C46_width, C51_end, C65_own, C71_default, C78_own, C80_growth, C80_over, C82_determined, C89_same, C90_same, C94_limits, C94_same, C98_start

## Classical.choice, Quot.sound, propext

C01_counterexample, C01_returns_partial, C01_stuck, C01_terminates_partial, C02_complete, C02_refinement, C03_canonical, C03_interleave, C03_interleave_value, C04_dashdash, C05_cluster, C05_cluster_value, C06_long, C06_short, C07_abbreviation, C07_flag, C07_resolution, C07_separate, C07_unknown, C07_unknown_harmless, C07_value, C08_counts, C09_end_zero, C09_invariant, C09_made, C09_no_stray_write, C10_capacity, C10_recorded, C11_operands, C12_history_partial, C12_same_call_differs, C12_stale_value, C13_argv, C14_permute, C15_empty, C15_leading_comma, C15_long_partial, C15_short, C16_exact, C16_missing, C17_remark, C18_silent, C19_long, C19_short, C20_posixly_correct, C21_read, C21_spelling, C22_exact, C22_partial, C22_rejected, C22_sign_after_prefix, C23_exact, C23_negates_long_min, C23_partial, C24_rejected, C25_empty, C25_strtod, C26_verbatim, C27_file, C27_unique, C28_fresh, C28_negative_hour, C28_range, C29_hms, C29_mdy, C29_roundtrip, C29_ymd, C30_century_off, C30_pivot_partial, C31_accept, C31_keep, C31_no_F, C31_reject, C31_unique, C32_accept, C32_made, C32_reject, C33_compile, C33_match, C34_faults, C34_inside_partial, C34_past_end, C35_count_digits, C35_count_modulo, C35_count_overflow, C35_count_shift, C35_empty, C35_handled_partial, C35_invalid, C36_contents, C37_after_free, C37_frame, C37_memory_partial, C37_own_copy, C37_own_short, C37_own_static, C38_catf, C39_change, C39_create, C39_map, C40_remove, C40_search, C40_visit, C41_after_uninit, C41_dispatch, C41_info, C41_iterate, C42_exact, C42_sorts, C42_sorts_all, C43_not_stable, C43_reverses, C44_exact, C44_long_form, C44_option, C44_short_form, C45_mentions, C45_syntax, C45_syntax_exact, C45_syntaxv, C45_syntaxv_exact, C46_complete, C46_hangs, C46_indented, C46_words, C46_wraps_partial, C47_default, C47_glossary, C47_glossary_exact, C47_gnu, C48_errors_partial, C48_long_sample, C48_low_byte, C48_order, C48_sample, C48_shape, C49_one, C49_stops, C49_zero, C50_free, C50_free_leaks, C50_freetable, C50_no_leak, C50_twice, C51_date, C51_dbl, C51_file, C51_fixed, C51_fixed_rex, C51_int, C51_lit, C51_negative, C51_rex, C51_str, C52_destroy, C52_destroy_keys, C52_ledger, C53_alternatives, C53_backtracking, C53_between, C53_boundary, C53_compiled, C53_late, C53_late_range, C53_made, C53_mixed_range, C53_not_compiled, C53_range, C53_short, C53_sound, C54_decides, C55_after_uninit, C55_errors, C55_get_help, C55_help, C55_help_first, C55_no_registry, C55_nothing, C56_accepted, C56_defaults, C56_int, C56_stored, C57_complete, C57_sound, C57_success, C57_unique, C58_spelling, C59_order, C60_entry, C60_reorder, C60_shared_name, C61_abbreviation, C61_extend, C61_insert, C62_date, C62_dbl, C62_end_aligned, C62_end_odd, C62_end_partial, C62_file, C62_int, C62_negative, C62_rex, C62_str, C63_errors, C63_formatted, C63_get_help, C63_glossary, C63_glossary_gnu, C63_help, C63_option, C63_option_text, C63_syntax, C63_syntax_error, C63_syntaxv, C64_history, C64_installed, C64_made, C64_no_stray, C64_parse, C64_scan, C65_dangling, C65_history, C65_info, C65_iterate, C65_iterator, C65_keep_description, C65_register, C65_stable, C65_step, C65_uninit, C65_unregister, C66_again, C66_history, C67_byte_255, C67_getopt_ends, C67_hangs, C67_loop, C68_getopt, C68_parse, C68_state, C69_agrees, C69_complete, C69_hangs, C69_refinement, C69_single_dash, C69_swallowed, C69_terminates, C70_admits, C70_conforming, C70_decides, C70_scan, C70_spelling, C70_stored, C70_unique, C71_alloc, C71_installed, C71_never_silent, C71_outcome, C71_plenty, C71_recover, C71_sizes, C71_state, C71_zero_request, C72_accepted_partial, C72_date, C72_default, C72_rejected, C73_balance, C73_blocks, C73_dangling, C73_end, C73_free, C73_make, C73_no_stray, C73_nullcheck, C73_parse, C73_print, C73_released, C73_safe, C73_whole, C74_canonical, C74_express, C74_portable, C74_texts, C75_accepted, C75_beyond, C75_first_alternative, C75_language, C75_same, C75_verdict, C76_constructor, C76_every_pattern, C76_one_meaning, C77_dstr, C77_errors, C77_formatted, C77_glossary, C77_glossary_gnu, C77_messages, C77_option, C77_syntax, C77_syntaxv, C78_failed, C78_first, C78_history, C78_info, C78_iterate, C78_name_again, C78_returns, C78_uninit, C78_version_again, C79_frame, C79_independent, C79_released, C79_texts, C80_dangling, C80_distinct, C80_ends, C80_once, C80_runs, C80_true, C81_again, C81_balance, C81_clear, C81_panic, C81_released, C81_returns, C81_safe, C81_stub, C81_whole, C82_calls, C82_distinct, C82_nested_scan, C82_returns, C82_total, C82_unique, C83_callbacks, C83_rounds, C84_balance, C84_commands, C84_help, C84_module, C84_parse, C84_released, C84_safe, C84_strings, C85_checked, C85_glossary, C85_gnu, C85_hole, C85_needed, C85_nullcheck, C85_parse, C85_syntax, C85_syntaxv, C86_getopt, C86_idx, C86_limit, C86_loop, C86_parse, C87_alone, C87_fair, C87_finish, C87_race, C87_race_memory, C87_safe, C88_always, C88_blowup, C88_brisk, C88_calls, C88_degree, C88_linear, C88_same, C89_comparisons, C89_depth, C89_ends, C90_cat, C90_growths, C90_memory, C90_quadratic, C91_any, C91_enough, C91_exact, C91_match, C91_match_exact, C91_unclosed, C92_alternatives, C92_detached, C92_emptied, C92_follow, C92_listed, C92_literal, C92_printed, C92_twice, C93_before, C93_raised, C93_stays, C93_waiting, C94_library, C94_lookup, C94_moved, C94_register, C94_steady, C94_unregister, C94_worst, C95_date, C95_date_undefined, C95_format, C95_format_undefined, C95_int, C95_int_taken, C95_int_undefined, C95_rex, C95_rex_undefined, C96_bounds, C96_exact, C96_looser, C96_minimum, C96_operands, C96_tighter, C97_help, C97_kept, C97_local, C97_operands, C97_switch, C98_ends, C98_misuse, C98_only, C98_replaced, C98_safe, C99_blocks, C99_bound, C99_exact, C99_none, C99_one, C99_same, C99_square, C99_worst, C99_zero
