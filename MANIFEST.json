{
 "claims": [
  {
   "property": "C01",
   "status": "partial",
   "theorems": [
    "Argtable.C01_returns_partial",
    "Argtable.C01_terminates_partial",
    "Argtable.C01_stuck",
    "Argtable.C01_counterexample"
   ],
   "note": "False as stated (C01_counterexample: `prog -a-` runs forever). C01_stuck and C01_returns_partial/C01_terminates_partial settle exactly which command lines return."
  },
  {
   "property": "C02",
   "status": "proved",
   "theorems": [
    "Argtable.C02_refinement",
    "Argtable.C02_complete"
   ],
   "note": ""
  },
  {
   "property": "C03",
   "status": "proved",
   "theorems": [
    "Argtable.C03_interleave",
    "Argtable.C03_interleave_value",
    "Argtable.C03_canonical"
   ],
   "note": ""
  },
  {
   "property": "C04",
   "status": "proved",
   "theorems": [
    "Argtable.C04_dashdash"
   ],
   "note": ""
  },
  {
   "property": "C05",
   "status": "proved",
   "theorems": [
    "Argtable.C05_cluster",
    "Argtable.C05_cluster_value"
   ],
   "note": ""
  },
  {
   "property": "C06",
   "status": "proved",
   "theorems": [
    "Argtable.C06_short",
    "Argtable.C06_long"
   ],
   "note": ""
  },
  {
   "property": "C07",
   "status": "proved",
   "theorems": [
    "Argtable.C07_resolution",
    "Argtable.C07_flag",
    "Argtable.C07_value",
    "Argtable.C07_separate",
    "Argtable.C07_unknown",
    "Argtable.C07_unknown_harmless",
    "Argtable.C07_abbreviation"
   ],
   "note": ""
  },
  {
   "property": "C08",
   "status": "proved",
   "theorems": [
    "Argtable.C08_counts"
   ],
   "note": ""
  },
  {
   "property": "C09",
   "status": "proved",
   "theorems": [
    "Argtable.C09_invariant",
    "Argtable.C09_no_stray_write",
    "Argtable.C09_made",
    "Argtable.C09_end_zero"
   ],
   "note": "For arg_end(m) with m >= 1; C09_end_zero shows that arg_end(0) is outside the property."
  },
  {
   "property": "C10",
   "status": "proved",
   "theorems": [
    "Argtable.C10_recorded",
    "Argtable.C10_capacity"
   ],
   "note": ""
  },
  {
   "property": "C11",
   "status": "proved",
   "theorems": [
    "Argtable.C11_operands"
   ],
   "note": ""
  },
  {
   "property": "C12",
   "status": "partial",
   "theorems": [
    "Argtable.C12_history_partial",
    "Argtable.C12_same_call_differs",
    "Argtable.C12_stale_value"
   ],
   "note": "False in three corners (option characters '?' ':' excluded by WF; %p without an hour: C12_same_call_differs; value of an option given without its optional value: C12_stale_value). Proved for every other table, history and command line."
  },
  {
   "property": "C13",
   "status": "proved",
   "theorems": [
    "Argtable.C13_argv"
   ],
   "note": ""
  },
  {
   "property": "C14",
   "status": "proved",
   "theorems": [
    "Argtable.C14_permute"
   ],
   "note": ""
  },
  {
   "property": "C15",
   "status": "partial",
   "theorems": [
    "Argtable.C15_long_partial",
    "Argtable.C15_short",
    "Argtable.C15_leading_comma",
    "Argtable.C15_empty"
   ],
   "note": "False for longopts strings that are empty or start with a comma (C15_empty, C15_leading_comma); proved for all others."
  },
  {
   "property": "C16",
   "status": "proved",
   "theorems": [
    "Argtable.C16_missing",
    "Argtable.C16_exact"
   ],
   "note": ""
  },
  {
   "property": "C17",
   "status": "proved",
   "theorems": [
    "Argtable.C17_remark"
   ],
   "note": ""
  },
  {
   "property": "C18",
   "status": "proved",
   "theorems": [
    "Argtable.C18_silent"
   ],
   "note": "For calls that return."
  },
  {
   "property": "C19",
   "status": "proved",
   "theorems": [
    "Argtable.C19_short",
    "Argtable.C19_long"
   ],
   "note": ""
  },
  {
   "property": "C20",
   "status": "proved",
   "theorems": [
    "Argtable.C20_posixly_correct"
   ],
   "note": ""
  },
  {
   "property": "C21",
   "status": "proved",
   "theorems": [
    "Argtable.C21_read",
    "Argtable.C21_spelling"
   ],
   "note": ""
  },
  {
   "property": "C22",
   "status": "partial",
   "theorems": [
    "Argtable.C22_exact",
    "Argtable.C22_partial",
    "Argtable.C22_rejected",
    "Argtable.C22_sign_after_prefix"
   ],
   "note": "False as stated (C22_sign_after_prefix: `0x-5` is accepted); C22_exact gives the exact accepted language and C22_partial the property for texts without a sign, space or second prefix after a prefix."
  },
  {
   "property": "C23",
   "status": "partial",
   "theorems": [
    "Argtable.C23_exact",
    "Argtable.C23_partial",
    "Argtable.C23_negates_long_min"
   ],
   "note": "False as stated (C23_negates_long_min); C23_exact characterises the overflowing texts, C23_partial covers all texts with at most one minus sign."
  },
  {
   "property": "C24",
   "status": "proved",
   "theorems": [
    "Argtable.C24_rejected"
   ],
   "note": ""
  },
  {
   "property": "C25",
   "status": "proved",
   "theorems": [
    "Argtable.C25_strtod",
    "Argtable.C25_empty"
   ],
   "note": ""
  },
  {
   "property": "C26",
   "status": "proved",
   "theorems": [
    "Argtable.C26_verbatim"
   ],
   "note": ""
  },
  {
   "property": "C27",
   "status": "proved",
   "theorems": [
    "Argtable.C27_file",
    "Argtable.C27_unique"
   ],
   "note": ""
  },
  {
   "property": "C28",
   "status": "proved",
   "theorems": [
    "Argtable.C28_range",
    "Argtable.C28_fresh",
    "Argtable.C28_negative_hour"
   ],
   "note": "C28_fresh: every date of an entry given any arguments since it was made. C28_range: any entry whose cells hold no negative hour; C28_negative_hour shows that this is needed."
  },
  {
   "property": "C29",
   "status": "proved",
   "theorems": [
    "Argtable.C29_roundtrip",
    "Argtable.C29_ymd",
    "Argtable.C29_hms",
    "Argtable.C29_mdy"
   ],
   "note": ""
  },
  {
   "property": "C30",
   "status": "partial",
   "theorems": [
    "Argtable.C30_pivot_partial",
    "Argtable.C30_century_off"
   ],
   "note": "The pivot is proved; the half about %C%y is false (C30_century_off)."
  },
  {
   "property": "C31",
   "status": "proved",
   "theorems": [
    "Argtable.C31_accept",
    "Argtable.C31_reject",
    "Argtable.C31_unique",
    "Argtable.C31_keep",
    "Argtable.C31_no_F"
   ],
   "note": ""
  },
  {
   "property": "C32",
   "status": "proved",
   "theorems": [
    "Argtable.C32_accept",
    "Argtable.C32_reject",
    "Argtable.C32_made"
   ],
   "note": ""
  },
  {
   "property": "C33",
   "status": "proved",
   "theorems": [
    "Argtable.C33_compile",
    "Argtable.C33_match"
   ],
   "note": "Divergence is the outcome .fuel of the model, whose bounds on depth and iterations are proved to be never reached; an execution ends at an out-of-bounds read."
  },
  {
   "property": "C34",
   "status": "partial",
   "theorems": [
    "Argtable.C34_inside_partial",
    "Argtable.C34_faults",
    "Argtable.C34_past_end"
   ],
   "note": "False in general (C34_past_end). Proved for patterns that compile and contain none of . [^ \\b \\B and the class escapes that contain NUL; C34_faults: nothing else can go wrong for any pattern. C75_beyond gives the exact condition for every well-formed pattern."
  },
  {
   "property": "C35",
   "status": "partial",
   "theorems": [
    "Argtable.C35_count_overflow",
    "Argtable.C35_count_digits",
    "Argtable.C35_count_shift",
    "Argtable.C35_count_modulo",
    "Argtable.C35_handled_partial",
    "Argtable.C35_invalid",
    "Argtable.C35_empty"
   ],
   "note": "False as stated (C35_invalid: NULL dereference for a pattern that does not compile; C35_empty). Proved for the patterns that compile and satisfy C34's condition (C35_handled_partial). C35_count_overflow, C35_count_digits, C35_count_shift, C35_count_modulo: what exactly becomes of the number in a{n}."
  },
  {
   "property": "C36",
   "status": "proved",
   "theorems": [
    "Argtable.C36_contents"
   ],
   "note": "All histories whose texts have at most 500,000,000 characters in total, so that no int overflows; strings passed in are the client's, not the object's own."
  },
  {
   "property": "C37",
   "status": "partial",
   "theorems": [
    "Argtable.C37_memory_partial",
    "Argtable.C37_frame",
    "Argtable.C37_own_copy",
    "Argtable.C37_own_static",
    "Argtable.C37_own_short",
    "Argtable.C37_own_cat",
    "Argtable.C37_after_free"
   ],
   "note": "False for clients that pass the object its own string or call arg_dstr_free (C37_own_static, C37_own_short, C37_own_cat, C37_after_free); proved for all other histories, and for own strings copied from the heap (C37_own_copy)."
  },
  {
   "property": "C38",
   "status": "proved",
   "theorems": [
    "Argtable.C38_catf"
   ],
   "note": "vsnprintf is a parameter: it produces the formatted text, cut off as C99 specifies. Sizes as for C36."
  },
  {
   "property": "C39",
   "status": "proved",
   "theorems": [
    "Argtable.C39_create",
    "Argtable.C39_map",
    "Argtable.C39_change",
    "Argtable.C39_duplicates"
   ],
   "note": "Pointer-level model of the buckets and chains; growth included. Keys are inserted only while absent (documented restriction; C39_duplicates shows it is needed). The load limit is an arbitrary function."
  },
  {
   "property": "C40",
   "status": "proved",
   "theorems": [
    "Argtable.C40_visit",
    "Argtable.C40_remove",
    "Argtable.C40_search"
   ],
   "note": "Plain iteration, iteration with removal through the iterator, and itr_search followed by itr_remove."
  },
  {
   "property": "C41",
   "status": "proved",
   "theorems": [
    "Argtable.C41_info",
    "Argtable.C41_dispatch",
    "Argtable.C41_iterate",
    "Argtable.C41_after_uninit"
   ],
   "note": "C41_after_uninit records that the registry variable dangles after arg_cmd_uninit."
  },
  {
   "property": "C42",
   "status": "proved",
   "theorems": [
    "Argtable.C42_sorts",
    "Argtable.C42_sorts_all",
    "Argtable.C42_exact",
    "Argtable.C42_overflow"
   ],
   "note": "Requires 2*(k+1) to fit an int (midpoint computation)."
  },
  {
   "property": "C43",
   "status": "proved",
   "theorems": [
    "Argtable.C43_reverses",
    "Argtable.C43_not_stable"
   ],
   "note": "The originally expected property (stability) is false: C43_not_stable. C43_reverses is the exact behaviour."
  },
  {
   "property": "C44",
   "status": "proved",
   "theorems": [
    "Argtable.C44_option",
    "Argtable.C44_exact",
    "Argtable.C44_short_form",
    "Argtable.C44_long_form"
   ],
   "note": "Buffer overflow is a fault of the model; Clipped in Spec/Print.lean says exactly what is shown: the full text up to 198 characters, the first 198 otherwise, at most 199 in all."
  },
  {
   "property": "C45",
   "status": "proved",
   "theorems": [
    "Argtable.C45_syntax",
    "Argtable.C45_syntax_exact",
    "Argtable.C45_syntaxv",
    "Argtable.C45_syntaxv_exact",
    "Argtable.C45_mentions"
   ],
   "note": "C45_syntax for arg_print_syntax, C45_syntaxv for the verbose form; exact variants for texts of at most 198 characters. The computation maxcount - mincount is done on unbounded integers (no int overflow)."
  },
  {
   "property": "C46",
   "status": "partial",
   "theorems": [
    "Argtable.C46_wraps_partial",
    "Argtable.C46_indented",
    "Argtable.C46_width",
    "Argtable.C46_complete",
    "Argtable.C46_words",
    "Argtable.C46_hangs"
   ],
   "note": "Column width 0 (right margin just left of the left margin) never terminates: C46_hangs. Otherwise C46_wraps_partial gives a layout relation from which indentation, width, completeness and word order are derived. Lines after an embedded newline in the last segment are not indented and a newline at a wrap point is printed twice (examples)."
  },
  {
   "property": "C47",
   "status": "proved",
   "theorems": [
    "Argtable.C47_glossary",
    "Argtable.C47_glossary_exact",
    "Argtable.C47_gnu",
    "Argtable.C47_default"
   ],
   "note": "C47_glossary for arg_print_glossary (printf format applied to option text and description), C47_gnu for the GNU style."
  },
  {
   "property": "C48",
   "status": "partial",
   "theorems": [
    "Argtable.C48_errors_partial",
    "Argtable.C48_sample",
    "Argtable.C48_long_sample",
    "Argtable.C48_shape",
    "Argtable.C48_order",
    "Argtable.C48_low_byte"
   ],
   "note": "C48_errors_partial: one message per recorded error of the command line's meaning, worded as Spec/Messages.lean says. Missing because false: arguments that start with '-' and contain one of the bytes 1 to 5 (C48_low_byte), date formats whose sample has 200 bytes or more (C48_long_sample); C48_sample gives the date message exactly."
  },
  {
   "property": "C49",
   "status": "proved",
   "theorems": [
    "Argtable.C49_one",
    "Argtable.C49_zero",
    "Argtable.C49_stops"
   ],
   "note": "For every array and heap, including arrays without terminator and dangling pointers (undefined)."
  },
  {
   "property": "C50",
   "status": "proved",
   "theorems": [
    "Argtable.C50_freetable",
    "Argtable.C50_no_leak",
    "Argtable.C50_twice",
    "Argtable.C50_free",
    "Argtable.C50_free_leaks"
   ],
   "note": "C50_free_leaks proves the documented flaw of arg_free. Objects are one allocation each; their addresses have to be distinct."
  },
  {
   "property": "C51",
   "status": "proved",
   "theorems": [
    "Argtable.C51_lit",
    "Argtable.C51_int",
    "Argtable.C51_dbl",
    "Argtable.C51_str",
    "Argtable.C51_file",
    "Argtable.C51_date",
    "Argtable.C51_rex",
    "Argtable.C51_end",
    "Argtable.C51_fixed",
    "Argtable.C51_fixed_rex",
    "Argtable.C51_negative"
   ],
   "note": "Negative counts are undefined behaviour (C51_negative). size_t overflow of the allocation size for huge counts is not modelled."
  },
  {
   "property": "C52",
   "status": "proved",
   "theorems": [
    "Argtable.C52_ledger",
    "Argtable.C52_destroy",
    "Argtable.C52_destroy_keys"
   ],
   "note": ""
  },
  {
   "property": "C53",
   "status": "proved",
   "theorems": [
    "Argtable.C53_sound",
    "Argtable.C53_late",
    "Argtable.C53_short",
    "Argtable.C53_compiled",
    "Argtable.C53_made",
    "Argtable.C53_range",
    "Argtable.C53_between",
    "Argtable.C53_mixed_range",
    "Argtable.C53_alternatives",
    "Argtable.C53_backtracking",
    "Argtable.C53_boundary",
    "Argtable.C53_late_range",
    "Argtable.C53_not_compiled"
   ],
   "note": "Trees cover every spelling the compiler accepts (C76), special characters standing for themselves included. C53_range: the members of the usual ranges; C53_mixed_range: a range from a digit to a letter ignoring case has unexpected members. The converse of C53 is false (C53_alternatives, C53_backtracking: no backtracking); C75 gives the exact verdict."
  },
  {
   "property": "C54",
   "status": "proved",
   "theorems": [
    "Argtable.C54_decides"
   ],
   "note": "Deterministic patterns (Re.Det) without '.', negated classes and class escapes containing NUL; arguments up to 65535 bytes. Outside this class C53 (soundness) still holds, and C53_alternatives and C53_backtracking show that completeness fails."
  },
  {
   "property": "C55",
   "status": "proved",
   "theorems": [
    "Argtable.C55_get_help",
    "Argtable.C55_help",
    "Argtable.C55_help_first",
    "Argtable.C55_nothing",
    "Argtable.C55_errors",
    "Argtable.C55_no_registry",
    "Argtable.C55_after_uninit"
   ],
   "note": "Tables whose texts fit the 200 byte buffers; error messages under the conditions of C48. C55_no_registry and C55_after_uninit: without a live registry the help message follows a NULL or dangling pointer."
  },
  {
   "property": "C56",
   "status": "proved",
   "theorems": [
    "Argtable.C56_accepted",
    "Argtable.C56_stored",
    "Argtable.C56_int",
    "Argtable.C56_defaults"
   ],
   "note": "C56_stored: after a return of 0, entry by entry, via Spec.Stores. C56_accepted: also with errors (the accepted arguments, in order). C56_int and C56_defaults read it off for an arg_int and for entries not given. Integer texts are those of LooseText (C22: exactly what arg_int accepts)."
  },
  {
   "property": "C57",
   "status": "proved",
   "theorems": [
    "Argtable.C57_complete",
    "Argtable.C57_sound",
    "Argtable.C57_success",
    "Argtable.C57_unique"
   ],
   "note": "C57_complete: a right command line (Spec.Right) makes arg_parse return 0 and every entry hold its values. C57_sound: the converse. C57_success: the equivalence. C57_unique: the values a right command line gives to the entries are determined by it. Regular expressions are restricted to deterministic patterns (C54), because TRex does not backtrack. The equivalence includes exactly when the operand that an arg_int refuses is undefined behaviour (NoOverflow, see C23)."
  },
  {
   "property": "C58",
   "status": "proved",
   "theorems": [
    "Argtable.C58_spelling"
   ],
   "note": "C58_spelling: the outcome (return value, entries, recorded errors, global state) is the same. Spec.Options is the reading of option arguments, built on the grammar of C57."
  },
  {
   "property": "C59",
   "status": "proved",
   "theorems": [
    "Argtable.C59_order"
   ],
   "note": "C59_order: same return value and entries. The recorded errors may come in another order, so they are not compared beyond their number (the return value)."
  },
  {
   "property": "C60",
   "status": "proved",
   "theorems": [
    "Argtable.C60_reorder",
    "Argtable.C60_entry",
    "Argtable.C60_shared_name"
   ],
   "note": "C60_reorder: same return value, the same entries permuted, operand entries in the same order. C60_entry: entry by entry, for entries with an option name. C60_shared_name: the condition that names are distinct is needed. The recorded errors may come in another order."
  },
  {
   "property": "C61",
   "status": "proved",
   "theorems": [
    "Argtable.C61_extend",
    "Argtable.C61_insert",
    "Argtable.C61_abbreviation"
   ],
   "note": "C61_extend: an entry added at the end. C61_insert: a named entry added anywhere. C61_abbreviation: the condition on abbreviations is needed (adding --version makes --ver ambiguous). Spec.Unconfused also looks at arguments that are operands or values, which makes the condition a little stronger than necessary."
  },
  {
   "property": "C62",
   "status": "partial",
   "theorems": [
    "Argtable.C62_plain",
    "Argtable.C62_int",
    "Argtable.C62_str",
    "Argtable.C62_date",
    "Argtable.C62_dbl",
    "Argtable.C62_rex",
    "Argtable.C62_file",
    "Argtable.C62_end_partial",
    "Argtable.C62_end_aligned",
    "Argtable.C62_negative",
    "Argtable.C62_end_odd"
   ],
   "note": "Proved for arg_lit, arg_rem, arg_int, arg_dbl, arg_str, arg_file, arg_date, arg_rex. arg_end: bounds and disjointness (C62_end_partial); its alignment is false in general: C62_end_aligned gives the exact condition, C62_end_odd the case of Linux x86-64. C62_negative: a negative maxcount."
  },
  {
   "property": "C63",
   "status": "proved",
   "theorems": [
    "Argtable.C63_option",
    "Argtable.C63_option_text",
    "Argtable.C63_syntax",
    "Argtable.C63_syntaxv",
    "Argtable.C63_glossary",
    "Argtable.C63_formatted",
    "Argtable.C63_glossary_gnu",
    "Argtable.C63_errors",
    "Argtable.C63_get_help",
    "Argtable.C63_help",
    "Argtable.C63_syntax_error"
   ],
   "note": "Spec.Prints and Spec.Adds say what it means to print; the texts are those of C44-C48 and C55 (given as the result of the text function; C63_option_text and C63_formatted are stated without it). For arg_print_errors the error functions at work are tied to the entries by Spec.Installed. A text with a NUL is excluded."
  },
  {
   "property": "C64",
   "status": "proved",
   "theorems": [
    "Argtable.C64_installed",
    "Argtable.C64_parse",
    "Argtable.C64_no_stray",
    "Argtable.C64_history",
    "Argtable.C64_scan",
    "Argtable.C64_made"
   ],
   "note": "C64_parse: the run with memory returns exactly what arg_parse returns, with all allocated blocks released and all other blocks unchanged. C64_no_stray: no undefined operation but those of C23, C34, C35 (so no use after release, no double release, no capture outside the array). C64_history: any sequence of calls. C64_scan, C64_made: one argument of an arg_rex, and the trial compilation in the constructor. Memory of the user's own functions is not considered; malloc succeeds."
  },
  {
   "property": "C65",
   "status": "proved",
   "theorems": [
    "Argtable.C65_own",
    "Argtable.C65_history",
    "Argtable.C65_info",
    "Argtable.C65_iterate",
    "Argtable.C65_uninit",
    "Argtable.C65_stable",
    "Argtable.C65_dangling",
    "Argtable.C65_register",
    "Argtable.C65_keep_description",
    "Argtable.C65_step",
    "Argtable.C65_unregister",
    "Argtable.C65_iterator"
   ],
   "note": "Model/CmdMem: string arguments are pointers that may point into the registry's own blocks; reading through a pointer into a freed block is a fault. C65_register gives the exact condition under which arg_cmd_register reads freed memory; C65_keep_description is the natural way to run into it. C65_iterator: unregistering the command under an iterator. Writes by the caller through the (non-const) pointers handed out are not considered."
  },
  {
   "property": "C66",
   "status": "proved",
   "theorems": [
    "Argtable.C66_history",
    "Argtable.C66_again"
   ],
   "note": "C66_history gives contents and exact number of blocks for any history; C66_again the steady state. The strings are on the model heap, the version text is put together by the arg_dstr model of C21/C22."
  },
  {
   "property": "C67",
   "status": "proved",
   "theorems": [
    "Argtable.C67_loop",
    "Argtable.C67_hangs",
    "Argtable.C67_getopt_ends",
    "Argtable.C67_byte_255"
   ],
   "note": "Every option string, every array of long options, every vector; the loop of calls is compared with a left-to-right reading (Spec/Getopt). The text of the messages is reduced to its kind, and all flag pointers point to one variable. C67_byte_255 shows why byte 255 must not be an option letter: its code is -1."
  },
  {
   "property": "C68",
   "status": "proved",
   "theorems": [
    "Argtable.C68_getopt",
    "Argtable.C68_parse",
    "Argtable.C68_state"
   ],
   "note": "Simulation of the string-level models by models with (string, offset) pointers and checked reads; C68_getopt covers any sequence of calls of the three getopt functions and restarts, C68_parse and C68_state cover arg_parse on tables of constructor-made objects (arg_str, arg_file, arg_rex keep pointers; other entries read their argument as a string)."
  },
  {
   "property": "C69",
   "status": "proved",
   "theorems": [
    "Argtable.C69_refinement",
    "Argtable.C69_complete",
    "Argtable.C69_terminates",
    "Argtable.C69_single_dash",
    "Argtable.C69_agrees",
    "Argtable.C69_hangs",
    "Argtable.C69_swallowed"
   ],
   "note": "Same shape as C01/C02 for the build with ARG_LONG_ONLY. C69_single_dash holds after any complete prefix; C69_agrees gives the command lines for which the build option makes no difference, C69_swallowed one where it does. Non-termination of -a- is shown as 'does not return' (C69_hangs)."
  },
  {
   "property": "C70",
   "status": "proved",
   "theorems": [
    "Argtable.C70_scan",
    "Argtable.C70_unique",
    "Argtable.C70_conforming",
    "Argtable.C70_decides",
    "Argtable.C70_spelling",
    "Argtable.C70_stored",
    "Argtable.C70_admits"
   ],
   "note": "strtod is required to be that of the C standard in the C locale, with any rounding; C70_conforming shows that this requirement can be met."
  },
  {
   "property": "C71",
   "status": "proved",
   "theorems": [
    "Argtable.C71_default",
    "Argtable.C71_alloc",
    "Argtable.C71_sizes",
    "Argtable.C71_installed",
    "Argtable.C71_never_silent",
    "Argtable.C71_outcome",
    "Argtable.C71_plenty",
    "Argtable.C71_state",
    "Argtable.C71_recover",
    "Argtable.C71_zero_request"
   ],
   "note": "arg_parse at every allocation failure: silent results are impossible, the table stays usable, at most six blocks are lost. Needs a panic function that does not return."
  },
  {
   "property": "C72",
   "status": "partial",
   "theorems": [
    "Argtable.C72_date",
    "Argtable.C72_accepted_partial",
    "Argtable.C72_rejected",
    "Argtable.C72_default"
   ],
   "note": "False as stated: the call that should set the sample date uses %F, which arg_strptime does not know, so the sample is made from a date with all members 0 (C72_date; every C library). C72_accepted_partial: accepted for every unambiguous format that does not mention the day of the month. C72_rejected: for every other unambiguous format the entry rejects its own sample, e.g. 01/00/00 for the default format (C72_default). Ambiguous formats (e.g. %aday) and strftime conversions with time zones or ISO weeks are not covered. That strftime prints an out-of-range day as a number is a hypothesis (StrftimeC); the C standard leaves it open."
  },
  {
   "property": "C73",
   "status": "proved",
   "theorems": [
    "Argtable.C73_balance",
    "Argtable.C73_released",
    "Argtable.C73_safe",
    "Argtable.C73_no_stray",
    "Argtable.C73_parse",
    "Argtable.C73_whole",
    "Argtable.C73_blocks",
    "Argtable.C73_end",
    "Argtable.C73_nullcheck",
    "Argtable.C73_dangling",
    "Argtable.C73_free",
    "Argtable.C73_make",
    "Argtable.C73_print"
   ],
   "note": "Programs are sequences of steps (Model/Life.lean) on one heap shared by constructors, arg_parse (with its memory, C64), printing (with its arg_dstr objects, C63) and freeing (C50). C73_balance/C73_released: what is allocated at each point; C73_safe: permitted steps never fail; C73_no_stray: other command lines fail only as in C23/C34/C35; C73_parse/C73_print/C73_make/C73_free: effect of each step on the rest of the program; C73_dangling: the restriction is needed. The contents of the objects are not laid out in the bytes of their blocks (C62 has the layout)."
  },
  {
   "property": "C74",
   "status": "proved",
   "theorems": [
    "Argtable.C74_express",
    "Argtable.C74_canonical",
    "Argtable.C74_portable",
    "Argtable.C74_texts"
   ],
   "note": "Spec/Express.lean is a writer of command lines; C74_express, C74_canonical, C74_portable, and C74_texts for arbitrary texts. An option without a letter cannot be given the empty text (--name= is an error, see C57), which CanSay records."
  },
  {
   "property": "C75",
   "status": "proved",
   "theorems": [
    "Argtable.C75_verdict",
    "Argtable.C75_accepted",
    "Argtable.C75_beyond",
    "Argtable.C75_language",
    "Argtable.C75_first_alternative",
    "Argtable.C75_same"
   ],
   "note": "Exact verdict (stored, reported, undefined) for all well-formed patterns whose ranges compile, deterministic or not, by a compositional semantics on syntax trees; equivalent spellings; consistent with the language of the pattern (C53, C54). By C76 these are all patterns that do not crash."
  },
  {
   "property": "C76",
   "status": "proved",
   "theorems": [
    "Argtable.C76_every_pattern",
    "Argtable.C76_constructor",
    "Argtable.C76_one_meaning"
   ],
   "note": "Inversion of the compiler: every pattern it accepts is written by a tree (so C53, C54, C75 cover all of them), quoted bytes above 127 included."
  },
  {
   "property": "C77",
   "status": "proved",
   "theorems": [
    "Argtable.C77_dstr",
    "Argtable.C77_safe_calls",
    "Argtable.C77_option",
    "Argtable.C77_syntax",
    "Argtable.C77_syntaxv",
    "Argtable.C77_glossary",
    "Argtable.C77_formatted",
    "Argtable.C77_glossary_gnu",
    "Argtable.C77_errors",
    "Argtable.C77_messages"
   ],
   "note": "Histories with failing calls on an arg_dstr object; every printing function writes a part of its text into an object, all or nothing to a stream. The calls of a printing function are exhibited as a sequence (ConsistsOf) that breaks off at the first failing call."
  },
  {
   "property": "C78",
   "status": "proved",
   "theorems": [
    "Argtable.C78_own",
    "Argtable.C78_history",
    "Argtable.C78_info",
    "Argtable.C78_iterate",
    "Argtable.C78_uninit",
    "Argtable.C78_failed",
    "Argtable.C78_returns",
    "Argtable.C78_first",
    "Argtable.C78_name_again",
    "Argtable.C78_version_again"
   ],
   "note": "Registry: the list of lost blocks is bounded by two for each failed call. Module settings: one failed call after any history of calls that returned; the three outcomes of a failed arg_set_module_version are each shown to occur. The failing allocations of the registry are named one by one (Room), those of the settings are decided by a supply."
  },
  {
   "property": "C79",
   "status": "proved",
   "theorems": [
    "Argtable.C79_texts",
    "Argtable.C79_independent",
    "Argtable.C79_frame",
    "Argtable.C79_released"
   ],
   "note": "Not included: passing an object a pointer into another object with ARG_DSTR_STATIC (the client would have to keep the other object unchanged), and giving an object its own string (C37_own_*). In DState a pointer to the buffer inside an object belongs to that object, so the short string of another object is passed as a temporary block with the same bytes."
  },
  {
   "property": "C80",
   "status": "proved",
   "theorems": [
    "Argtable.C80_runs",
    "Argtable.C80_true",
    "Argtable.C80_once",
    "Argtable.C80_distinct",
    "Argtable.C80_ends",
    "Argtable.C80_over",
    "Argtable.C80_dangling",
    "Argtable.C80_growth"
   ],
   "note": "Any load limit that grows with the table (the library's 65 percent: IterateDemo.lim_growing). The two conditions on the program are shown to be needed (C80_dangling, C80_growth)."
  },
  {
   "property": "C81",
   "status": "proved",
   "theorems": [
    "Argtable.C81_safe",
    "Argtable.C81_balance",
    "Argtable.C81_released",
    "Argtable.C81_returns",
    "Argtable.C81_panic",
    "Argtable.C81_again",
    "Argtable.C81_whole",
    "Argtable.C81_stub",
    "Argtable.C81_clear"
   ],
   "note": "Capstone of C71, C73 and C77: a program that recovers from lack of memory by longjmp. Tables with arg_date formats that leave parts of the date alone are excluded in C81_again, as in C09."
  },
  {
   "property": "C82",
   "status": "proved",
   "theorems": [
    "Argtable.C82_calls",
    "Argtable.C82_returns",
    "Argtable.C82_total",
    "Argtable.C82_unique",
    "Argtable.C82_determined",
    "Argtable.C82_distinct",
    "Argtable.C82_nested_scan"
   ],
   "note": "Both directions, for arbitrary callbacks that leave getopt's variables alone (reset and check functions may change them); C82_nested_scan shows that a scan function may not call arg_parse."
  },
  {
   "property": "C83",
   "status": "proved",
   "theorems": [
    "Argtable.C83_rounds",
    "Argtable.C83_callbacks"
   ],
   "note": "Both bounds hold for every table; calls of getopt_long and of callbacks are counted, not machine time."
  },
  {
   "property": "C84",
   "status": "proved",
   "theorems": [
    "Argtable.C84_safe",
    "Argtable.C84_strings",
    "Argtable.C84_module",
    "Argtable.C84_commands",
    "Argtable.C84_parse",
    "Argtable.C84_help",
    "Argtable.C84_balance",
    "Argtable.C84_released"
   ],
   "note": "Composition of C66, C41, C73, C79 and C76: one memory, all interleavings. C84_safe: legal steps are defined. C84_strings, C84_module, C84_commands: what the parts hold. C84_parse: arg_parse as alone. C84_help: text of the help message. C84_balance, C84_released: memory. The nodes of the registry are not in this memory (C65); malloc succeeds."
  },
  {
   "property": "C85",
   "status": "proved",
   "theorems": [
    "Argtable.C85_syntax",
    "Argtable.C85_syntaxv",
    "Argtable.C85_glossary",
    "Argtable.C85_gnu",
    "Argtable.C85_parse",
    "Argtable.C85_hole",
    "Argtable.C85_needed",
    "Argtable.C85_nullcheck",
    "Argtable.C85_checked"
   ],
   "note": "The array of pointers in memory (Model/Cells); Spec.TableAt says which entries come before the first marker. The text lines are those of C45 and C47; arg_parse is shown equal to the model of all other properties."
  },
  {
   "property": "C86",
   "status": "proved",
   "theorems": [
    "Argtable.C86_getopt",
    "Argtable.C86_loop",
    "Argtable.C86_idx",
    "Argtable.C86_parse",
    "Argtable.C86_limit"
   ],
   "note": "Simulation of the models with unbounded numbers by models with int variables; argc = INT_MAX overflows (C86_limit). The members of the messages and of the objects are as in the unbounded models."
  },
  {
   "property": "C87",
   "status": "proved",
   "theorems": [
    "Argtable.C87_alone",
    "Argtable.C87_safe",
    "Argtable.C87_finish",
    "Argtable.C87_fair",
    "Argtable.C87_race",
    "Argtable.C87_race_memory"
   ],
   "note": "Steps are coarser than those of real threads; threads do not share tables."
  },
  {
   "property": "C88",
   "status": "proved",
   "theorems": [
    "Argtable.C88_same",
    "Argtable.C88_calls",
    "Argtable.C88_brisk",
    "Argtable.C88_linear",
    "Argtable.C88_always",
    "Argtable.C88_blowup",
    "Argtable.C88_degree"
   ],
   "note": "C88_same: the counter changes nothing; C88_calls: calls ≤ tries · (length + 1); C88_brisk, C88_linear, C88_always: closed forms; C88_degree: the degree of the polynomial is right; C88_blowup: nested stars really cost 65536^k."
  },
  {
   "property": "C89",
   "status": "proved",
   "theorems": [
    "Argtable.C89_ends",
    "Argtable.C89_comparisons",
    "Argtable.C89_depth",
    "Argtable.C89_same",
    "Argtable.C89_leak"
   ],
   "note": "C89_ends: all outcomes for any comparison function; C89_comparisons; C89_depth: the depth of the recursion is exact; C89_same: with an ordinary function it is the sort of C42/C43; C89_leak: longjmp out of the comparison leaks."
  },
  {
   "property": "C90",
   "status": "proved",
   "theorems": [
    "Argtable.C90_memory",
    "Argtable.C90_growths",
    "Argtable.C90_same",
    "Argtable.C90_cat",
    "Argtable.C90_quadratic"
   ],
   "note": "C90_memory, C90_growths are about the functions of C36-C38; C90_cat and C90_quadratic about the same functions with a counter of the bytes that strlen, strcpy, memset and memcpy look at or write (C90_same: the counter changes nothing)."
  },
  {
   "property": "C91",
   "status": "proved",
   "theorems": [
    "Argtable.C91_enough",
    "Argtable.C91_any",
    "Argtable.C91_exact",
    "Argtable.C91_unclosed",
    "Argtable.C91_match",
    "Argtable.C91_match_exact"
   ],
   "note": "Exact bounds on the nesting of calls, for compiling and for matching; the frame size of a call (a constant of the compiler) is not modelled, nor the other functions on the stack."
  },
  {
   "property": "C92",
   "status": "proved",
   "theorems": [
    "Argtable.C92_printed",
    "Argtable.C92_literal",
    "Argtable.C92_follow",
    "Argtable.C92_alternatives",
    "Argtable.C92_listed",
    "Argtable.C92_twice",
    "Argtable.C92_detached",
    "Argtable.C92_emptied"
   ],
   "note": "Printing and parsing linked: any plan that obeys the printed usage line is accepted and stored as written. Exceptions stated in the property and proved as C92_twice, C92_detached, C92_emptied. Texts of more than 198 characters are clipped when printed (C44) and excluded in C92_printed/C92_literal."
  },
  {
   "property": "C93",
   "status": "proved",
   "theorems": [
    "Argtable.C93_raised",
    "Argtable.C93_stays",
    "Argtable.C93_before",
    "Argtable.C93_waiting"
   ],
   "note": "C93_raised is the statement about the errors the arguments raise; C93_stays reads it off the error table of the two calls (a full table shows only that there are errors); C93_before is the contrapositive; C93_waiting shows why an option still waiting for its value is excluded."
  },
  {
   "property": "C94",
   "status": "proved",
   "theorems": [
    "Argtable.C94_same",
    "Argtable.C94_moved",
    "Argtable.C94_steady",
    "Argtable.C94_limits",
    "Argtable.C94_library",
    "Argtable.C94_lookup",
    "Argtable.C94_unregister",
    "Argtable.C94_register",
    "Argtable.C94_worst"
   ],
   "note": "Counters added to the hash table and registry model; exact total of moved entries over any history, exact number of entries and comparisons of one search, and a worst case for every number of commands."
  },
  {
   "property": "C95",
   "status": "proved",
   "theorems": [
    "Argtable.C95_int",
    "Argtable.C95_int_undefined",
    "Argtable.C95_int_taken",
    "Argtable.C95_date",
    "Argtable.C95_date_undefined",
    "Argtable.C95_rex",
    "Argtable.C95_rex_undefined",
    "Argtable.C95_format",
    "Argtable.C95_format_undefined"
   ],
   "note": "Exact for arg_int (an equivalence, outside the inputs of C30's overflow); for arg_date, arg_rex and glossary texts: defined for all ASCII texts, never a different result, and general families of texts that are undefined."
  },
  {
   "property": "C96",
   "status": "proved",
   "theorems": [
    "Argtable.C96_bounds",
    "Argtable.C96_looser",
    "Argtable.C96_minimum",
    "Argtable.C96_tighter",
    "Argtable.C96_exact",
    "Argtable.C96_operands"
   ],
   "note": "Looser bounds keep accepted command lines and their values (C96_looser); for any lower bounds the return value counts the entries with too few values (C96_bounds); C96_minimum is exact for the lower bounds; C96_operands shows that the condition on entries for operands is needed."
  },
  {
   "property": "C97",
   "status": "proved",
   "theorems": [
    "Argtable.C97_local",
    "Argtable.C97_operands",
    "Argtable.C97_kept",
    "Argtable.C97_switch",
    "Argtable.C97_help"
   ],
   "note": "C97_local and C97_operands: influence only from what is given; C97_kept: the values kept, errors or not (arg_rex: deterministic patterns, arguments up to 65535 characters as in C80/C90); C97_switch, C97_help: counts of switches."
  },
  {
   "property": "C98",
   "status": "proved",
   "theorems": [
    "Argtable.C98_ends",
    "Argtable.C98_only",
    "Argtable.C98_safe",
    "Argtable.C98_misuse",
    "Argtable.C98_start",
    "Argtable.C98_replaced"
   ],
   "note": "C98_ends and C98_only: runs are exactly what the description over the history of registrations says; C98_safe, C98_misuse: the only undefined behaviour is that of the assertions; C98_replaced: a command that replaces itself."
  },
  {
   "property": "C99",
   "status": "proved",
   "theorems": [
    "Argtable.C99_same",
    "Argtable.C99_one",
    "Argtable.C99_blocks",
    "Argtable.C99_exact",
    "Argtable.C99_bound",
    "Argtable.C99_square",
    "Argtable.C99_none",
    "Argtable.C99_zero",
    "Argtable.C99_worst"
   ],
   "note": ""
  }
 ]
}