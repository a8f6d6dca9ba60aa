{
"C01": {
"status": "partial",
"note": "False as stated (C01_counterexample: `prog -a-` runs forever). C01_stuck and C01_returns_partial/C01_terminates_partial settle exactly which command lines return."
},
"C09": {
"status": "proved",
"note": "For arg_end(m) with m >= 1; C09_end_zero shows that arg_end(0) is outside the property."
},
"C15": {
"status": "partial",
"note": "False for longopts strings that are empty or start with a comma (C15_empty, C15_leading_comma); proved for all others."
},
"C18": {
"note": "For calls that return."
},
"C12": {
"status": "partial",
"note": "False in three corners (option characters '?' ':' excluded by WF; %p without an hour: C12_same_call_differs; value of an option given without its optional value: C12_stale_value). Proved for every other table, history and command line."
},
"C22": {
"status": "partial",
"note": "False as stated (C22_sign_after_prefix: `0x-5` is accepted); C22_exact gives the exact accepted language and C22_partial the property for texts without a sign, space or second prefix after a prefix."
},
"C23": {
"status": "partial",
"note": "False as stated (C23_negates_long_min); C23_exact characterises the overflowing texts, C23_partial covers all texts with at most one minus sign."
},
"C28": {
"status": "proved",
"note": "C28_fresh: every date of an entry given any arguments since it was made. C28_range: any entry whose cells hold no negative hour; C28_negative_hour shows that this is needed."
},
"C30": {
"status": "partial",
"note": "The pivot is proved; the half about %C%y is false (C30_century_off)."
},
"C33": {
"note": "Divergence is the outcome .fuel of the model, whose bounds on depth and iterations are proved to be never reached; an execution ends at an out-of-bounds read."
},
"C34": {
"note": "False in general (C34_past_end). Proved for patterns that compile and contain none of . [^ \\b \\B and the class escapes that contain NUL; C34_faults: nothing else can go wrong for any pattern. C75_beyond gives the exact condition for every well-formed pattern."
},
"C35": {
"note": "False as stated (C35_invalid: NULL dereference for a pattern that does not compile; C35_empty). Proved for the patterns that compile and satisfy C34's condition (C35_handled_partial). C35_count_overflow, C35_count_digits, C35_count_shift, C35_count_modulo: what exactly becomes of the number in a{n}."
},
"C36": {
"note": "All histories whose texts have at most 500,000,000 characters in total, so that no int overflows; strings passed in are the client's, not the object's own."
},
"C37": {
"note": "False for clients that pass the object its own string or call arg_dstr_free (C37_own_static, C37_own_short, C37_own_cat, C37_after_free); proved for all other histories, and for own strings copied from the heap (C37_own_copy)."
},
"C38": {
"note": "vsnprintf is a parameter: it produces the formatted text, cut off as C99 specifies. Sizes as for C36."
},
"C39": {
"status": "proved",
"note": "Pointer-level model of the buckets and chains; growth included. Keys are inserted only while absent (documented restriction; C39_duplicates shows it is needed). The load limit is an arbitrary function."
},
"C40": {
"status": "proved",
"note": "Plain iteration, iteration with removal through the iterator, and itr_search followed by itr_remove."
},
"C41": {
"status": "proved",
"note": "C41_after_uninit records that the registry variable dangles after arg_cmd_uninit."
},
"C42": {
"status": "proved",
"note": "Requires 2*(k+1) to fit an int (midpoint computation)."
},
"C43": {
"status": "proved",
"note": "The originally expected property (stability) is false: C43_not_stable. C43_reverses is the exact behaviour."
},
"C52": {
"status": "proved",
"note": ""
},
"C44": {
"note": "Buffer overflow is a fault of the model; Clipped in Spec/Print.lean says exactly what is shown: the full text up to 198 characters, the first 198 otherwise, at most 199 in all."
},
"C45": {
"note": "C45_syntax for arg_print_syntax, C45_syntaxv for the verbose form; exact variants for texts of at most 198 characters. The computation maxcount - mincount is done on unbounded integers (no int overflow)."
},
"C46": {
"note": "Column width 0 (right margin just left of the left margin) never terminates: C46_hangs. Otherwise C46_wraps_partial gives a layout relation from which indentation, width, completeness and word order are derived. Lines after an embedded newline in the last segment are not indented and a newline at a wrap point is printed twice (examples)."
},
"C47": {
"note": "C47_glossary for arg_print_glossary (printf format applied to option text and description), C47_gnu for the GNU style."
},
"C48": {
"note": "C48_errors_partial: one message per recorded error of the command line's meaning, worded as Spec/Messages.lean says. Missing because false: arguments that start with '-' and contain one of the bytes 1 to 5 (C48_low_byte), date formats whose sample has 200 bytes or more (C48_long_sample); C48_sample gives the date message exactly."
},
"C49": {
"note": "For every array and heap, including arrays without terminator and dangling pointers (undefined)."
},
"C50": {
"note": "C50_free_leaks proves the documented flaw of arg_free. Objects are one allocation each; their addresses have to be distinct."
},
"C51": {
"note": "Negative counts are undefined behaviour (C51_negative). size_t overflow of the allocation size for huge counts is not modelled."
},
"C53": {
"note": "Trees cover every spelling the compiler accepts (C76), special characters standing for themselves included. C53_range: the members of the usual ranges; C53_mixed_range: a range from a digit to a letter ignoring case has unexpected members. The converse of C53 is false (C53_alternatives, C53_backtracking: no backtracking); C75 gives the exact verdict."
},
"C54": {
"note": "Deterministic patterns (Re.Det) without '.', negated classes and class escapes containing NUL; arguments up to 65535 bytes. Outside this class C53 (soundness) still holds, and C53_alternatives and C53_backtracking show that completeness fails."
},
"C55": {
"note": "Tables whose texts fit the 200 byte buffers; error messages under the conditions of C48. C55_no_registry and C55_after_uninit: without a live registry the help message follows a NULL or dangling pointer."
},
"C56": {
"note": "C56_stored: after a return of 0, entry by entry, via Spec.Stores. C56_accepted: also with errors (the accepted arguments, in order). C56_int and C56_defaults read it off for an arg_int and for entries not given. Integer texts are those of LooseText (C22: exactly what arg_int accepts)."
},
"C57": {
"note": "C57_complete: a right command line (Spec.Right) makes arg_parse return 0 and every entry hold its values. C57_sound: the converse. C57_success: the equivalence. C57_unique: the values a right command line gives to the entries are determined by it. Regular expressions are restricted to deterministic patterns (C54), because TRex does not backtrack. The equivalence includes exactly when the operand that an arg_int refuses is undefined behaviour (NoOverflow, see C23)."
},
"C58": {
"note": "C58_spelling: the outcome (return value, entries, recorded errors, global state) is the same. Spec.Options is the reading of option arguments, built on the grammar of C57."
},
"C59": {
"note": "C59_order: same return value and entries. The recorded errors may come in another order, so they are not compared beyond their number (the return value)."
},
"C60": {
"note": "C60_reorder: same return value, the same entries permuted, operand entries in the same order. C60_entry: entry by entry, for entries with an option name. C60_shared_name: the condition that names are distinct is needed. The recorded errors may come in another order."
},
"C61": {
"note": "C61_extend: an entry added at the end. C61_insert: a named entry added anywhere. C61_abbreviation: the condition on abbreviations is needed (adding --version makes --ver ambiguous). Spec.Unconfused also looks at arguments that are operands or values, which makes the condition a little stronger than necessary."
},
"C62": {
"note": "Proved for arg_lit, arg_rem, arg_int, arg_dbl, arg_str, arg_file, arg_date, arg_rex. arg_end: bounds and disjointness (C62_end_partial); its alignment is false in general: C62_end_aligned gives the exact condition, C62_end_odd the case of Linux x86-64. C62_negative: a negative maxcount."
},
"C63": {
"note": "Spec.Prints and Spec.Adds say what it means to print; the texts are those of C44-C48 and C55 (given as the result of the text function; C63_option_text and C63_formatted are stated without it). For arg_print_errors the error functions at work are tied to the entries by Spec.Installed. A text with a NUL is excluded."
},
"C64": {
"note": "C64_parse: the run with memory returns exactly what arg_parse returns, with all allocated blocks released and all other blocks unchanged. C64_no_stray: no undefined operation but those of C23, C34, C35 (so no use after release, no double release, no capture outside the array). C64_history: any sequence of calls. C64_scan, C64_made: one argument of an arg_rex, and the trial compilation in the constructor. Memory of the user's own functions is not considered; malloc succeeds."
},
"C65": {
"note": "Model/CmdMem: string arguments are pointers that may point into the registry's own blocks; reading through a pointer into a freed block is a fault. C65_register gives the exact condition under which arg_cmd_register reads freed memory; C65_keep_description is the natural way to run into it. C65_iterator: unregistering the command under an iterator. Writes by the caller through the (non-const) pointers handed out are not considered."
},
"C66": {
"note": "C66_history gives contents and exact number of blocks for any history; C66_again the steady state. The strings are on the model heap, the version text is put together by the arg_dstr model of C21/C22."
},
"C67": {
"note": "Every option string, every array of long options, every vector; the loop of calls is compared with a left-to-right reading (Spec/Getopt). The text of the messages is reduced to its kind, and all flag pointers point to one variable. C67_byte_255 shows why byte 255 must not be an option letter: its code is -1."
},
"C68": {
"note": "Simulation of the string-level models by models with (string, offset) pointers and checked reads; C68_getopt covers any sequence of calls of the three getopt functions and restarts, C68_parse and C68_state cover arg_parse on tables of constructor-made objects (arg_str, arg_file, arg_rex keep pointers; other entries read their argument as a string)."
},
"C69": {
"status": "proved",
"note": "Same shape as C01/C02 for the build with ARG_LONG_ONLY. C69_single_dash holds after any complete prefix; C69_agrees gives the command lines for which the build option makes no difference, C69_swallowed one where it does. Non-termination of -a- is shown as 'does not return' (C69_hangs)."
},
"C70": {
"note": "strtod is required to be that of the C standard in the C locale, with any rounding; C70_conforming shows that this requirement can be met."
},
"C71": {
"note": "arg_parse at every allocation failure: silent results are impossible, the table stays usable, at most six blocks are lost. Needs a panic function that does not return."
},
"C72": {
"status": "partial",
"note": "False as stated: the call that should set the sample date uses %F, which arg_strptime does not know, so the sample is made from a date with all members 0 (C72_date; every C library). C72_accepted_partial: accepted for every unambiguous format that does not mention the day of the month. C72_rejected: for every other unambiguous format the entry rejects its own sample, e.g. 01/00/00 for the default format (C72_default). Ambiguous formats (e.g. %aday) and strftime conversions with time zones or ISO weeks are not covered. That strftime prints an out-of-range day as a number is a hypothesis (StrftimeC); the C standard leaves it open."
},
"C73": {
"note": "Programs are sequences of steps (Model/Life.lean) on one heap shared by constructors, arg_parse (with its memory, C64), printing (with its arg_dstr objects, C63) and freeing (C50). C73_balance/C73_released: what is allocated at each point; C73_safe: permitted steps never fail; C73_no_stray: other command lines fail only as in C23/C34/C35; C73_parse/C73_print/C73_make/C73_free: effect of each step on the rest of the program; C73_dangling: the restriction is needed. The contents of the objects are not laid out in the bytes of their blocks (C62 has the layout)."
},
"C74": {
"note": "Spec/Express.lean is a writer of command lines; C74_express, C74_canonical, C74_portable, and C74_texts for arbitrary texts. An option without a letter cannot be given the empty text (--name= is an error, see C57), which CanSay records."
},
"C75": {
"note": "Exact verdict (stored, reported, undefined) for all well-formed patterns whose ranges compile, deterministic or not, by a compositional semantics on syntax trees; equivalent spellings; consistent with the language of the pattern (C53, C54). By C76 these are all patterns that do not crash."
},
"C76": {
"status": "proved",
"note": "Inversion of the compiler: every pattern it accepts is written by a tree (so C53, C54, C75 cover all of them), quoted bytes above 127 included."
},
"C77": {
"note": "Histories with failing calls on an arg_dstr object; every printing function writes a part of its text into an object, all or nothing to a stream. The calls of a printing function are exhibited as a sequence (ConsistsOf) that breaks off at the first failing call."
},
"C78": {
"note": "Registry: the list of lost blocks is bounded by two for each failed call. Module settings: one failed call after any history of calls that returned; the three outcomes of a failed arg_set_module_version are each shown to occur. The failing allocations of the registry are named one by one (Room), those of the settings are decided by a supply."
},
"C79": {
"note": "Not included: passing an object a pointer into another object with ARG_DSTR_STATIC (the client would have to keep the other object unchanged), and giving an object its own string (C37_own_*). In DState a pointer to the buffer inside an object belongs to that object, so the short string of another object is passed as a temporary block with the same bytes."
},
"C80": {
"note": "Any load limit that grows with the table (the library's 65 percent: IterateDemo.lim_growing). The two conditions on the program are shown to be needed (C80_dangling, C80_growth)."
},
"C81": {
"note": "Capstone of C71, C73 and C77: a program that recovers from lack of memory by longjmp. Tables with arg_date formats that leave parts of the date alone are excluded in C81_again, as in C09."
},
"C82": {
"note": "Both directions, for arbitrary callbacks that leave getopt's variables alone (reset and check functions may change them); C82_nested_scan shows that a scan function may not call arg_parse."
},
"C83": {
"note": "Both bounds hold for every table; calls of getopt_long and of callbacks are counted, not machine time."
},
"C84": {
"note": "Composition of C66, C41, C73, C79 and C76: one memory, all interleavings. C84_safe: legal steps are defined. C84_strings, C84_module, C84_commands: what the parts hold. C84_parse: arg_parse as alone. C84_help: text of the help message. C84_balance, C84_released: memory. The nodes of the registry are not in this memory (C65); malloc succeeds."
},
"C85": {
"note": "The array of pointers in memory (Model/Cells); Spec.TableAt says which entries come before the first marker. The text lines are those of C45 and C47; arg_parse is shown equal to the model of all other properties."
},
"C86": {
"note": "Simulation of the models with unbounded numbers by models with int variables; argc = INT_MAX overflows (C86_limit). The members of the messages and of the objects are as in the unbounded models."
},
"C87": {
"note": "Steps are coarser than those of real threads; threads do not share tables."
},
"C88": {
"note": "C88_same: the counter changes nothing; C88_calls: calls ≤ tries · (length + 1); C88_brisk, C88_linear, C88_always: closed forms; C88_degree: the degree of the polynomial is right; C88_blowup: nested stars really cost 65536^k."
},
"C89": {
"note": "C89_ends: all outcomes for any comparison function; C89_comparisons; C89_depth: the depth of the recursion is exact; C89_same: with an ordinary function it is the sort of C42/C43; C89_leak: longjmp out of the comparison leaks."
},
"C90": {
"note": "C90_memory, C90_growths are about the functions of C36-C38; C90_cat and C90_quadratic about the same functions with a counter of the bytes that strlen, strcpy, memset and memcpy look at or write (C90_same: the counter changes nothing)."
},
"C91": {
"note": "Exact bounds on the nesting of calls, for compiling and for matching; the frame size of a call (a constant of the compiler) is not modelled, nor the other functions on the stack."
},
"C92": {
"note": "Printing and parsing linked: any plan that obeys the printed usage line is accepted and stored as written. Exceptions stated in the property and proved as C92_twice, C92_detached, C92_emptied. Texts of more than 198 characters are clipped when printed (C44) and excluded in C92_printed/C92_literal."
},
"C93": {
"status": "proved",
"note": "C93_raised is the statement about the errors the arguments raise; C93_stays reads it off the error table of the two calls (a full table shows only that there are errors); C93_before is the contrapositive; C93_waiting shows why an option still waiting for its value is excluded."
},
"C94": {
"note": "Counters added to the hash table and registry model; exact total of moved entries over any history, exact number of entries and comparisons of one search, and a worst case for every number of commands."
},
"C95": {
"note": "Exact for arg_int (an equivalence, outside the inputs of C30's overflow); for arg_date, arg_rex and glossary texts: defined for all ASCII texts, never a different result, and general families of texts that are undefined."
},
"C96": {
"note": "Looser bounds keep accepted command lines and their values (C96_looser); for any lower bounds the return value counts the entries with too few values (C96_bounds); C96_minimum is exact for the lower bounds; C96_operands shows that the condition on entries for operands is needed."
},
"C97": {
"note": "C97_local and C97_operands: influence only from what is given; C97_kept: the values kept, errors or not (arg_rex: deterministic patterns, arguments up to 65535 characters as in C80/C90); C97_switch, C97_help: counts of switches."
},
"C98": {
"note": "C98_ends and C98_only: runs are exactly what the description over the history of registrations says; C98_safe, C98_misuse: the only undefined behaviour is that of the assertions; C98_replaced: a command that replaces itself."
}
}