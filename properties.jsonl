{"id": "C01", "title": "arg_parse always returns", "statement": "For every argument table and every command line, arg_parse() terminates. (Found false: a short-option cluster whose last character is '-' and in which that '-' is reached as an option character, such as `-a-` with a flag `-a`, makes arg_parse loop forever. The model proves the divergence and proves termination on every other command line.)", "quantifier": "all tables, all argv of any length with arguments of any content, both settings of POSIXLY_CORRECT", "why_tests_cant": "Non-termination depends on the exact content of an argument at the exact place the scan reaches it; no finite set of command lines establishes termination for the rest.", "anchors": ["src/argtable3.c:arg_parse", "src/argtable3.c:arg_parse_tagged", "src/arg_getopt_long.c:getopt_internal", "src/arg_getopt_long.c:parse_long_options"]}
{"id": "C02", "title": "arg_parse reads the command line as documented", "statement": "The result of arg_parse() (values and counts in every table entry, the errors recorded in arg_end and the return value) equals what a direct left-to-right reading of the command line prescribes: options (short, clustered, long, abbreviated, with attached or separate values) are delivered to the owning table entry in command-line order, then the operands are delivered in order to the untagged entries, then the minimum-count checks run. The index arithmetic and argv permutation of the embedded getopt never change that reading.", "quantifier": "all well-formed tables, all argv, both POSIXLY_CORRECT settings, any prior getopt state", "why_tests_cant": "getopt permutes argv in place with block rotations while scanning; unit tests cover a few interleavings, the claim is about all of them.", "anchors": ["src/argtable3.c:arg_parse", "src/argtable3.c:arg_parse_tagged", "src/argtable3.c:arg_parse_untagged", "src/arg_getopt_long.c:getopt_internal", "src/arg_getopt_long.c:permute_args"]}
{"id": "C03", "title": "Options and operands may be interleaved freely", "statement": "Without POSIXLY_CORRECT and before any `--`, moving an operand across an option (with the option's separate value kept next to it) does not change the result of arg_parse(): same values, counts, errors and return value.", "quantifier": "all tables, all command lines, all adjacent operand/option exchanges", "why_tests_cant": "The number of interleavings is unbounded; a test fixes one.", "anchors": ["src/arg_getopt_long.c:permute_args", "src/arg_getopt_long.c:getopt_internal", "src/argtable3.c:arg_parse"]}
{"id": "C04", "title": "`--` ends option processing", "statement": "Everything after the first `--` that is read as an option marker is delivered as operands, verbatim and in order, even if it starts with `-`; the `--` itself is delivered to nobody.", "quantifier": "all tables and all suffixes after `--`", "why_tests_cant": "The suffix is arbitrary.", "anchors": ["src/arg_getopt_long.c:getopt_internal", "src/argtable3.c:arg_parse_untagged"]}
{"id": "C05", "title": "Clustered short flags equal separate flags", "statement": "`-abc` has exactly the same effect as `-a -b -c` for short options without value, and `-abV` the same as `-a -b V`-style attachment, for clusters of any length.", "quantifier": "all tables, all clusters of flag characters of any length, any surrounding command line", "why_tests_cant": "Cluster length and surrounding arguments are unbounded.", "anchors": ["src/arg_getopt_long.c:getopt_internal", "src/argtable3.c:arg_parse_tagged", "src/argtable3.c:alloc_shortoptions"]}
{"id": "C06", "title": "Attached and separate option values are equivalent", "statement": "For an option that requires a value, `-oV` and `-o V` (V non-empty), and `--name=V` and `--name V` (V non-empty), have the same effect for every V, including values that look like options.", "quantifier": "all tables, all options requiring a value, all values", "why_tests_cant": "Values range over all strings.", "anchors": ["src/arg_getopt_long.c:getopt_internal", "src/arg_getopt_long.c:parse_long_options", "src/argtable3.c:arg_parse_tagged"]}
{"id": "C07", "title": "Long option abbreviation is resolved exactly", "statement": "An argument `--p` or `--p=v` denotes the first long option whose name is exactly p if there is one; otherwise, if p is a prefix of at least one name and all names with that prefix have the same entry and value kind, it denotes the first of these; otherwise nothing, and exactly one error is recorded and no table entry is altered.", "quantifier": "all sets of long option names, all prefixes", "why_tests_cant": "Ambiguity depends on the whole set of names.", "anchors": ["src/arg_getopt_long.c:parse_long_options", "src/argtable3.c:alloc_longoptions", "src/argtable3.c:arg_parse_tagged"]}
{"id": "C08", "title": "Occurrence counts respect the declared bounds", "statement": "After arg_parse() every entry's count is at most its maxcount; when arg_parse() returns 0 every entry's count is also at least its mincount.", "quantifier": "all tables, all argv", "why_tests_cant": "Must hold for every command line, including ones mixing failing and succeeding arguments.", "anchors": ["src/argtable3.c:arg_parse", "src/argtable3.c:arg_parse_check", "src/arg_lit.c:arg_lit_scanfn", "src/arg_int.c:arg_int_scanfn", "src/arg_str.c:arg_str_scanfn"]}
{"id": "C09", "title": "Parsing never writes outside the value arrays", "statement": "For tables made by the public constructors, arg_parse() never stores a value or an error outside the arrays allocated by the constructor, for any command line. (Found to need an arg_end with room for at least one error: arg_end(0) makes arg_parse write before its arrays.)", "quantifier": "all tables built by arg_lit/int/dbl/str/file/date/rex/rem/end constructors with non-negative counts, all argv, any history of earlier parses", "why_tests_cant": "Memory safety must hold for every input; tests that happen not to crash do not show it.", "anchors": ["src/argtable3.c:arg_register_error", "src/arg_int.c:arg_int_scanfn", "src/arg_end.c:arg_end"]}
{"id": "C10", "title": "Error recording is bounded and ordered", "statement": "If a parse raises n errors and arg_end has room for m >= 1, arg_parse() returns min(n,m); the recorded errors are the first m in the order raised if n <= m, and otherwise the first m-1 followed by a 'too many errors' record.", "quantifier": "all n, m >= 1, all tables and argv", "why_tests_cant": "Unbounded number of errors and table sizes.", "anchors": ["src/argtable3.c:arg_register_error", "src/arg_end.c:arg_end_errorfn"]}
{"id": "C11", "title": "Every operand is consumed once or reported once", "statement": "For every command line, each operand is either stored in exactly one untagged entry, operands going to entries in table order with each entry's operands in command-line order, or gives rise to exactly one error record that carries it.", "quantifier": "all tables, all operand lists", "why_tests_cant": "Interplay of scan failures with advancing to the next entry is history-dependent.", "anchors": ["src/argtable3.c:arg_parse_untagged"]}
{"id": "C12", "title": "Parsing is independent of earlier parses", "statement": "The outcome of arg_parse() depends only on the table's definition and the command line, not on previously parsed command lines nor on getopt's global variables. (Found false in three corners: a table that uses '?' or ':' as an option character exposes stale getopt state, and a date entry whose format has %p starts from the previous value, and an option given without its optional value shows the value of an earlier parse.)", "quantifier": "all histories of earlier calls, all tables, all argv", "why_tests_cant": "Quantifies over all earlier histories.", "anchors": ["src/argtable3.c:arg_parse", "src/argtable3.c:arg_reset", "src/arg_getopt_long.c:getopt_internal", "src/arg_date.c:arg_date_scanfn"]}
{"id": "C13", "title": "arg_parse does not modify the caller's argv", "statement": "arg_parse() leaves the caller's argv array unchanged; the permutation is applied to a private copy, of which the final content is a permutation of the original with the program name first.", "quantifier": "all argv", "why_tests_cant": "All argument vectors.", "anchors": ["src/argtable3.c:arg_parse", "src/arg_getopt_long.c:permute_args"]}
{"id": "C14", "title": "The argv permutation exchanges two adjacent blocks", "statement": "The in-place permutation step of getopt exchanges two adjacent non-empty blocks of argv, preserving order inside each block and everything outside, for all block sizes.", "quantifier": "all arrays, all positions and block lengths >= 1", "why_tests_cant": "The gcd cycle-leader loop has infinitely many size combinations.", "anchors": ["src/arg_getopt_long.c:permute_args", "src/arg_getopt_long.c:gcd"]}
{"id": "C15", "title": "Option tables are built inside their allocations", "statement": "Building the short and long option tables from an argument table writes only inside the allocated buffers. (Found false for a long-options string that begins with a comma or is empty; proved for all others.)", "quantifier": "all tables, all shortopts/longopts strings", "why_tests_cant": "Heap bounds for arbitrary strings.", "anchors": ["src/argtable3.c:alloc_longoptions", "src/argtable3.c:alloc_shortoptions"]}
{"id": "C16", "title": "Missing-argument reporting is exact", "statement": "If parsing raised no other error, then arg_parse() records exactly one 'missing' error for each entry whose count is below mincount, in table order, and none for the others; if other errors were raised, no missing error is recorded.", "quantifier": "all tables, all argv with argc >= 1", "why_tests_cant": "All combinations of entries and counts.", "anchors": ["src/argtable3.c:arg_parse", "src/argtable3.c:arg_parse_check"]}
{"id": "C17", "title": "arg_rem entries do not affect parsing", "statement": "Removing or adding arg_rem entries anywhere in a table changes neither the values stored, nor the errors recorded, nor the return value.", "quantifier": "all tables, all placements of arg_rem entries, all argv", "why_tests_cant": "All tables and positions.", "anchors": ["src/arg_rem.c:arg_rem", "src/argtable3.c:arg_parse"]}
{"id": "C18", "title": "Parsing prints nothing", "statement": "arg_parse() writes no message to stderr for any command line: all diagnostics go through arg_end.", "quantifier": "all tables, all argv", "why_tests_cant": "Every error path of getopt must be silent.", "anchors": ["src/argtable3.c:arg_parse_tagged", "src/arg_getopt_long.c:getopt_internal", "src/arg_getopt_long.c:parse_long_options"]}
{"id": "C19", "title": "An option is delivered to the first entry that declares it", "statement": "If several table entries declare the same short option character, every occurrence goes to the first one in table order; the same holds for equal long names.", "quantifier": "all tables with duplicates, all argv", "why_tests_cant": "All tables.", "anchors": ["src/argtable3.c:find_shortoption", "src/argtable3.c:arg_parse_tagged", "src/arg_getopt_long.c:parse_long_options"]}
{"id": "C20", "title": "POSIXLY_CORRECT stops options at the first operand", "statement": "When POSIXLY_CORRECT is set, the first operand and everything after it are operands, in order.", "quantifier": "all tables, all argv", "why_tests_cant": "Arbitrary suffix.", "anchors": ["src/arg_getopt_long.c:getopt_internal"]}
{"id": "C21", "title": "Integer values are read exactly", "statement": "For every integer representable in int, its decimal, hexadecimal (0x), octal (0o) and binary (0b) spelling, with optional sign, is accepted by an arg_int and stored as exactly that integer; with KB/MB/GB suffix it is stored as that number times 2^10/2^20/2^30 if representable, and otherwise reported as overflow.", "quantifier": "all integers, all four bases, all suffixes", "why_tests_cant": "2^32 values times spellings; boundary cases in overflow detection.", "anchors": ["src/arg_int.c:strtol0X", "src/arg_int.c:arg_int_scanfn", "src/arg_int.c:detectsuffix"]}
{"id": "C22", "title": "Non-integers are rejected", "statement": "An arg_int accepts a string only if it is white space, an optional sign, digits in one of the four notations, an optional KB/MB/GB suffix and trailing white space, and the value fits an int; the stored value is the denoted number.", "quantifier": "all strings", "why_tests_cant": "All strings.", "anchors": ["src/arg_int.c:strtol0X", "src/arg_int.c:arg_int_scanfn"]}
{"id": "C23", "title": "Integer scanning has no signed overflow", "statement": "Scanning an integer never performs a signed overflow. (Found false: `-0x-8000000000000000` negates LONG_MIN; proved for every string without a sign after the radix prefix.)", "quantifier": "all strings", "why_tests_cant": "All strings.", "anchors": ["src/arg_int.c:strtol0X", "src/arg_int.c:arg_int_scanfn"]}
{"id": "C24", "title": "A rejected argument leaves the entry untouched", "statement": "When an entry rejects an argument (too many, not a number, no match, bad date), its count and all its stored values stay as they were.", "quantifier": "all entry types, all entry states, all argument strings", "why_tests_cant": "All strings and states.", "anchors": ["src/arg_int.c:arg_int_scanfn", "src/arg_dbl.c:arg_dbl_scanfn", "src/arg_date.c:arg_date_scanfn", "src/arg_rex.c:arg_rex_scanfn", "src/arg_file.c:arg_file_scanfn", "src/arg_str.c:arg_str_scanfn", "src/arg_lit.c:arg_lit_scanfn"]}
{"id": "C25", "title": "arg_dbl accepts exactly what strtod consumes completely", "statement": "An arg_dbl with room left accepts a string iff strtod() leaves no unread rest, and stores strtod()'s value. (Consequence found: the empty string is accepted as 0.)", "quantifier": "all strings, any strtod", "why_tests_cant": "All strings.", "anchors": ["src/arg_dbl.c:arg_dbl_scanfn"]}
{"id": "C26", "title": "arg_str stores values verbatim and in order", "statement": "The i-th value stored by an arg_str is the i-th argument delivered to it, unchanged, up to maxcount.", "quantifier": "all sequences of arguments", "why_tests_cant": "All sequences.", "anchors": ["src/arg_str.c:arg_str_scanfn"]}
{"id": "C27", "title": "arg_file decomposes file names correctly", "statement": "For every file name, basename is the part after the last path separator ('' for '.' and '..'), and extension is the part of the basename from its last '.' provided that is not the first character of the basename and something follows it, and '' otherwise.", "quantifier": "all strings", "why_tests_cant": "All strings.", "anchors": ["src/arg_file.c:arg_file_basename", "src/arg_file.c:arg_file_extension"]}
{"id": "C28", "title": "Accepted dates have fields in range", "statement": "Whenever the date parser accepts an input, every field it sets is in its calendar range (month 0..11, day 1..31, hour 0..23, minute 0..59, second 0..61, weekday 0..6), for every format and input. ", "quantifier": "all formats, all input strings, all initial values with in-range fields", "why_tests_cant": "All formats and strings.", "anchors": ["src/arg_date.c:arg_strptime", "src/arg_date.c:conv_num"]}
{"id": "C29", "title": "Date and time round-trip", "statement": "Printing a date as YYYY-MM-DD (0 <= year <= 9999), or a time as HH:MM:SS, or a date as MM/DD/YY, and scanning it with the corresponding format gives back the same fields and consumes the whole string.", "quantifier": "all years, months, days, hours, minutes, seconds in range", "why_tests_cant": "Millions of values.", "anchors": ["src/arg_date.c:arg_strptime", "src/arg_date.c:conv_num"]}
{"id": "C30", "title": "Two-digit years use the POSIX pivot and compose with %C", "statement": "%y maps 00..68 to 2000..2068 and 69..99 to 1969..1999; %C followed by %y denotes year 100*C+y. (Second half found false: %C%y yields a tm_year of 100*C+y instead of 100*C+y-1900.)", "quantifier": "all years", "why_tests_cant": "All combinations.", "anchors": ["src/arg_date.c:arg_strptime"]}
{"id": "C31", "title": "A date is accepted only if the whole argument is consumed", "statement": "An arg_date stores a value iff the format matches a prefix and nothing is left over; the fields not mentioned by the format keep the previous contents of that slot.", "quantifier": "all formats, all strings, all slot contents", "why_tests_cant": "All formats and strings.", "anchors": ["src/arg_date.c:arg_date_scanfn", "src/arg_date.c:arg_strptime"]}
{"id": "C32", "title": "Literal regular expressions accept exactly the literal", "statement": "An arg_rex whose pattern is a non-empty string of ordinary characters accepts exactly that string (up to letter case when ARG_REX_ICASE is given).", "quantifier": "all literal patterns, all arguments", "why_tests_cant": "All strings.", "anchors": ["src/arg_rex.c:arg_rex_scanfn", "src/arg_rex.c:trex_compile", "src/arg_rex.c:trex_match"]}
{"id": "C33", "title": "Regular-expression matching terminates", "statement": "Compiling any non-empty pattern and matching any text terminates.", "quantifier": "all patterns, all texts", "why_tests_cant": "All patterns and texts.", "anchors": ["src/arg_rex.c:trex_matchnode", "src/arg_rex.c:trex_compile"]}
{"id": "C34", "title": "Regular-expression matching stays inside the text", "statement": "Matching never reads beyond the terminating NUL of the text. (Found false: `.` matches the terminating NUL, so pattern `a.b` on text `a` reads past the end; proved for patterns without '.', negated classes and negated class escapes.)", "quantifier": "all patterns, all texts", "why_tests_cant": "All patterns and texts.", "anchors": ["src/arg_rex.c:trex_matchnode", "src/arg_rex.c:trex_matchclass"]}
{"id": "C35", "title": "Invalid patterns are handled", "statement": "An arg_rex with a pattern that does not compile rejects arguments without crashing. (Found false: a pattern that fails to compile makes the scan dereference NULL, and the empty pattern writes outside its node array.)", "quantifier": "all patterns, all texts", "why_tests_cant": "All patterns.", "anchors": ["src/arg_rex.c:arg_rex_scanfn", "src/arg_rex.c:trex_compile"]}
{"id": "C36", "title": "arg_dstr contents are the concatenation of what was appended", "statement": "After any sequence of arg_dstr operations the C string of the object is the concatenation of what was appended since the last set or reset.", "quantifier": "all sequences of set/cat/catc/catf/reset, all strings of all lengths", "why_tests_cant": "Buffer growth boundaries occur at arbitrary lengths.", "anchors": ["src/arg_dstr.c:arg_dstr_set", "src/arg_dstr.c:arg_dstr_cat", "src/arg_dstr.c:arg_dstr_catc", "src/arg_dstr.c:arg_dstr_catf", "src/arg_dstr.c:setup_append_buf"]}
{"id": "C37", "title": "arg_dstr manages memory correctly", "statement": "Over any sequence of operations no block is freed twice or used after free, no write goes outside a block, and after arg_dstr_destroy() no block allocated by the object is live. (Found false when arg_dstr_set is given the object's own string, and when the public arg_dstr_free is followed by other operations.)", "quantifier": "all operation sequences", "why_tests_cant": "All histories.", "anchors": ["src/arg_dstr.c:arg_dstr_set", "src/arg_dstr.c:setup_append_buf", "src/arg_dstr.c:arg_dstr_destroy", "src/arg_dstr.c:arg_dstr_free"]}
{"id": "C38", "title": "Formatted append is complete", "statement": "arg_dstr_catf() terminates and appends the entire formatted text, whatever its length.", "quantifier": "all formatted texts, all prior contents", "why_tests_cant": "All lengths.", "anchors": ["src/arg_dstr.c:arg_dstr_catf"]}
{"id": "C39", "title": "The command hash table behaves as a map", "statement": "After any sequence of insert (of absent keys), remove, change and search, the hash table returns for each key the value last associated with it, count equals the number of keys, and growth never loses or duplicates an entry.", "quantifier": "all operation sequences, all hash functions consistent with key equality", "why_tests_cant": "Collisions, chain orders and resizes depend on the whole history.", "anchors": ["src/arg_hashtable.c:arg_hashtable_insert", "src/arg_hashtable.c:arg_hashtable_expand", "src/arg_hashtable.c:arg_hashtable_remove", "src/arg_hashtable.c:arg_hashtable_search", "src/arg_hashtable.c:arg_hashtable_change"]}
{"id": "C40", "title": "Iteration visits every entry exactly once", "statement": "Iterating a non-empty hash table from creation of the iterator until it reports the end visits each entry exactly once; removing the current entry through the iterator removes exactly that one and continues with the rest.", "quantifier": "all reachable tables", "why_tests_cant": "All shapes of buckets.", "anchors": ["src/arg_hashtable.c:arg_hashtable_itr_create", "src/arg_hashtable.c:arg_hashtable_itr_advance", "src/arg_hashtable.c:arg_hashtable_itr_remove"]}
{"id": "C41", "title": "The command registry returns the latest registration", "statement": "After any sequence of arg_cmd_register and arg_cmd_unregister, arg_cmd_info and arg_cmd_dispatch use the most recent registration of that name that has not been unregistered, arg_cmd_count is the number of registered names, and iterating lists every registered name exactly once with its latest registration.", "quantifier": "all histories of register/unregister with names and descriptions within the limits", "why_tests_cant": "All histories.", "anchors": ["src/arg_cmd.c:arg_cmd_register", "src/arg_cmd.c:arg_cmd_unregister", "src/arg_cmd.c:arg_cmd_info", "src/arg_cmd.c:arg_cmd_dispatch", "src/arg_cmd.c:arg_cmd_count"]}
{"id": "C42", "title": "arg_mgsort sorts", "statement": "For every array whose positions and byte offsets fit an int (2*length at most 2^31+2, length*element size below 2^31) and every comparison function that is a total preorder, arg_mgsort() produces a sorted permutation of the array; elements outside the range are untouched. Beyond that length the computation of the midpoint overflows an int.", "quantifier": "all arrays within the int bounds, all element sizes, all total preorders", "why_tests_cant": "All arrays.", "anchors": ["src/arg_utils.c:arg_mgsort", "src/arg_utils.c:merge"]}
{"id": "C43", "title": "arg_mgsort reverses elements that compare equal", "statement": "Elements comparing equal come out of arg_mgsort() in the reverse of their original order (so the sort is deterministic but not stable).", "quantifier": "all arrays within the int bounds, all element sizes, all total preorders", "why_tests_cant": "All arrays.", "anchors": ["src/arg_utils.c:merge"]}
{"id": "C44", "title": "Rendering an option never overflows and is exact when it fits", "statement": "Rendering an option for the syntax line or the glossary never writes outside its 200-byte buffer, for any option strings; the result is the full text if that has at most 198 characters, and otherwise agrees with its first 198 characters.", "quantifier": "all shortopts/longopts/datatype strings", "why_tests_cant": "All lengths of three strings.", "anchors": ["src/argtable3.c:arg_cat", "src/argtable3.c:arg_cat_option", "src/argtable3.c:arg_cat_optionv", "src/argtable3.c:arg_print_syntax_ds", "src/argtable3.c:arg_print_glossary_ds"]}
{"id": "C45", "title": "The syntax line mentions each entry as often as declared", "statement": "arg_print_syntax shows each entry mincount times plain, then the optional repetitions in brackets (one, or several up to the bracketed limit, or '...'), in table order.", "quantifier": "all tables", "why_tests_cant": "All tables and counts.", "anchors": ["src/argtable3.c:arg_print_syntax_ds", "src/argtable3.c:arg_print_syntaxv_ds", "src/argtable3.c:arg_print_gnuswitch_ds"]}
{"id": "C46", "title": "Formatted glossary text is wrapped, complete and within margins", "statement": "Word-wrapped glossary text contains the words of the input in order with nothing lost, each output line fits the column unless it is a single unbreakable word cut at the column width, and wrapping terminates. (Found false when the right margin is just left of the left margin: the loop never ends.)", "quantifier": "all texts, all margins", "why_tests_cant": "All texts and margins.", "anchors": ["src/argtable3.c:arg_print_formatted_ds"]}
{"id": "C47", "title": "The glossary lists exactly the entries that have a description", "statement": "arg_print_glossary prints one line for each entry with a glossary string, in table order, and nothing else.", "quantifier": "all tables", "why_tests_cant": "All tables.", "anchors": ["src/argtable3.c:arg_print_glossary_ds"]}
{"id": "C48", "title": "arg_print_errors prints each recorded error", "statement": "After arg_parse has returned, arg_print_errors prints exactly one message per recorded error, in order, each starting with the program name and ending with a newline; missing, excess and unreadable values name the option, and unknown short options, ambiguous/unknown long options and unexpected operands are reported with their text. (Found false for unknown short options whose character is one of the bytes 1 to 5, which are taken for internal error codes, and for date formats whose expansion does not fit 200 bytes.)", "quantifier": "all tables, all command lines, all program names", "why_tests_cant": "The message depends on the table, the whole command line and every recorded error; lists of errors are unbounded.", "anchors": ["src/arg_end.c:arg_print_errors_ds", "src/arg_end.c:arg_end_errorfn"]}
{"id": "C49", "title": "arg_nullcheck detects failed allocations", "statement": "arg_nullcheck returns 1 iff some entry up to and including the terminator position is NULL, and never reads past the terminator.", "quantifier": "all tables with any pattern of NULL entries", "why_tests_cant": "All patterns.", "anchors": ["src/argtable3.c:arg_nullcheck"]}
{"id": "C50", "title": "arg_freetable releases each entry exactly once", "statement": "arg_freetable frees every non-NULL entry exactly once and sets the slot to NULL. arg_free does so for the entries up to the terminator. (arg_free found to stop at the first NULL, leaking the rest.)", "quantifier": "all tables with any pattern of NULL entries", "why_tests_cant": "All patterns.", "anchors": ["src/argtable3.c:arg_freetable", "src/argtable3.c:arg_free"]}
{"id": "C51", "title": "Constructors reserve room for at least mincount values", "statement": "For every n-ary constructor the stored maxcount is max(maxcount, mincount) and the value array has exactly that many slots; the object's values start as documented ('' for strings, 0 count).", "quantifier": "all mincount, maxcount", "why_tests_cant": "All integers.", "anchors": ["src/arg_int.c:arg_intn", "src/arg_str.c:arg_strn", "src/arg_file.c:arg_filen", "src/arg_dbl.c:arg_dbln", "src/arg_lit.c:arg_litn", "src/arg_date.c:arg_daten", "src/arg_rex.c:arg_rexn"]}
{"id": "C52", "title": "The hash table frees every key and value exactly once", "statement": "At any time the keys and values handed over to a hash table are those it has freed together with those it still holds; destroying the table frees the rest, so every block handed over is freed exactly once (with free_values; otherwise every key) and no entry is left.", "quantifier": "all operation sequences (insert, remove, change, removal through an iterator), all lawful hash functions", "why_tests_cant": "Ownership has to balance over every history, including collisions, growth and removals in the middle of a chain.", "anchors": ["src/arg_hashtable.c:arg_hashtable_remove", "src/arg_hashtable.c:arg_hashtable_change", "src/arg_hashtable.c:arg_hashtable_itr_remove", "src/arg_hashtable.c:arg_hashtable_destroy"]}
{"id": "C53", "title": "arg_rex accepts only texts in the language of its pattern", "statement": "For every pattern built from characters, quoted characters, classes, class escapes, '.', '^', '$', word boundaries (as arg_rex defines them), groups, alternatives and repetitions, an arg_rex entry never accepts an argument that the pattern does not describe. (Ignoring case, a range stands for two: with both ends in capital letters and with both in small letters.) Such a pattern compiles exactly if no range has more parts of the pattern before it than the code of the character its end starts with, in particular if it has at most 34 characters.", "quantifier": "all patterns (as syntax trees, any size and nesting), all argument texts, all states of the entry", "why_tests_cant": "Infinitely many patterns, nesting depths and texts; wrong matches hide in combinations of nested repetitions, alternatives and anchors.", "anchors": ["src/arg_rex.c: arg_rex_scanfn, trex_compile, trex_matchnode, trex_matchclass, trex_match"]}
{"id": "C54", "title": "arg_rex decides deterministic patterns", "statement": "For every pattern in which the next character always tells how to go on (alternatives start with different characters; a repeated part and what follows it start with different characters, unless the number of repetitions is fixed; no '.', no negated class) and every argument of at most 65535 bytes, an arg_rex entry with room accepts and stores the argument exactly when the pattern describes it, and otherwise reports it as not matching and leaves its values alone.", "quantifier": "all deterministic patterns (as syntax trees, any size and nesting), all argument texts up to 65535 bytes, all states of the entry", "why_tests_cant": "Infinitely many patterns and texts; the matcher never backtracks, so completeness is a global property of pattern and text.", "anchors": ["src/arg_rex.c: arg_rex_scanfn, trex_compile, trex_matchnode, trex_matchclass, trex_match"]}
{"id": "C55", "title": "Help and usage messages say what was registered", "statement": "The help message shows the description registered last for the command (nothing if it is not registered), the program name set last ('<name>' if none or empty), every entry with all its spellings as often as its counts allow, and one line for each entry with a description. A request for help takes precedence over errors (exit code 0); otherwise, if arg_parse reported errors, the text is one message per recorded error followed by the usage line (exit code 1); otherwise nothing is printed and the exit code is left alone.", "quantifier": "all histories of registrations, names and versions, all tables whose texts fit their buffers, all command lines", "why_tests_cant": "The text depends on the whole history of the registry and on every table and command line.", "anchors": ["src/arg_cmd.c: arg_set_module_name, arg_set_module_version, arg_make_get_help_msg, arg_make_help_msg, arg_make_syntax_err_msg, arg_make_syntax_err_help_msg"]}
{"id": "C56", "title": "After a successful parse every entry holds exactly what it was given", "statement": "When arg_parse returns 0, every entry of the table holds exactly the values the command line gives to it, in order: the arguments of its options followed by its own run of the operands. The count is their number; an arg_int holds the integer each text denotes, an arg_dbl what strtod makes of it, an arg_str the text, an arg_file the name, base name and extension, an arg_date the date read in its format, an arg_rex the text, which belongs to the language of the pattern. No operand is lost or used twice, and cells the command line gives no text for keep their preset values. With errors, the values held are those of the accepted arguments in order.", "quantifier": "all tables made of the public entry types, in any earlier state, and all command lines for which arg_parse returns", "why_tests_cant": "It composes tokenising, option lookup, distribution of operands and all value scanners over every table and every command line.", "anchors": ["src/argtable3.c: arg_parse, arg_parse_tagged, arg_parse_untagged, arg_reset", "src/arg_int.c: arg_int_scanfn", "src/arg_dbl.c: arg_dbl_scanfn", "src/arg_str.c: arg_str_resetfn, arg_str_scanfn", "src/arg_file.c: arg_file_scanfn", "src/arg_date.c: arg_date_scanfn", "src/arg_rex.c: arg_rex_scanfn", "src/arg_lit.c: arg_lit_scanfn"]}
{"id": "C57", "title": "arg_parse returns 0 exactly for the right command lines", "statement": "arg_parse returns 0 if and only if the command line is right for the table: it consists of known options, spelled in full or by an unambiguous abbreviation, with values exactly where they are required or allowed, and of operands; the operands are divided in order among the entries without option names, each taking as many as it can; every entry is given at least its minimum and at most its maximum number of values, and every value is one that its type admits (the integers, numbers, dates, texts of the regular expression). In that case every entry holds exactly those values.", "quantifier": "all tables made of the public entry types (regular expressions: deterministic patterns), in any earlier state, all command lines (arguments of at most 65535 characters)", "why_tests_cant": "It is an equivalence between a grammar and the whole parser, over every table and every command line.", "anchors": ["src/argtable3.c: arg_parse, arg_parse_tagged, arg_parse_untagged, arg_parse_check", "src/arg_getopt_long.c: getopt_long", "src/arg_int.c: arg_int_scanfn", "src/arg_dbl.c: arg_dbl_scanfn", "src/arg_str.c: arg_str_scanfn", "src/arg_file.c: arg_file_scanfn", "src/arg_date.c: arg_date_scanfn", "src/arg_rex.c: arg_rex_scanfn", "src/arg_lit.c: arg_lit_scanfn"]}
{"id": "C58", "title": "Options may be spelled in any way", "statement": "If two sequences of option arguments give the same values to the same entries in the same order - by short names, clusters of short names, long names, unambiguous abbreviations, attached or separate values - then replacing one by the other, anywhere options are still recognised, changes nothing: arg_parse returns the same value, every entry holds the same, and the same errors are recorded.", "quantifier": "all tables with well-formed option names, all pairs of option sequences with the same reading, all surrounding arguments, with and without POSIXLY_CORRECT", "why_tests_cant": "There are unboundedly many spellings and contexts.", "anchors": ["src/argtable3.c: arg_parse, arg_parse_tagged", "src/arg_getopt_long.c: getopt_long, parse_long_options", "src/argtable3.c: alloc_longoptions, alloc_shortoptions"]}
{"id": "C59", "title": "The order of options matters only among options of one entry", "statement": "If two sequences of option arguments give each entry the same values in the same order (but may interleave the entries differently), then replacing one by the other changes neither the return value of arg_parse nor what any entry holds.", "quantifier": "all tables with well-formed option names, all pairs of option sequences, all surrounding arguments", "why_tests_cant": "It ranges over every interleaving of options of any table.", "anchors": ["src/argtable3.c: arg_parse, arg_parse_tagged", "src/arg_getopt_long.c: getopt_long, parse_long_options", "src/argtable3.c: alloc_longoptions, alloc_shortoptions"]}
{"id": "C60", "title": "The order of entries in the table does not matter", "statement": "If no two entries of an argument table have an option name in common, then listing the entries in another order - keeping the order of the entries without option names among themselves - changes nothing: arg_parse returns the same value, and every entry ends up in the same state.", "quantifier": "all tables with well-formed, pairwise distinct option names, all such reorderings, all command lines", "why_tests_cant": "It ranges over all permutations of all tables and all command lines; abbreviations are looked up in the whole table.", "anchors": ["src/argtable3.c: arg_parse, arg_parse_tagged, arg_parse_untagged, alloc_longoptions, alloc_shortoptions, find_shortoption", "src/arg_getopt_long.c: parse_long_options"]}
{"id": "C61", "title": "Adding an optional entry keeps accepted command lines", "statement": "Adding one more entry that need not occur to an argument table - at the end, or anywhere if it has an option name and shares none with the entries behind it - changes nothing for a command line that was accepted before: arg_parse still returns 0, the other entries end up exactly as before, and the new entry has count 0 and its preset values; provided that every long option on the command line is written in full or is not an abbreviation of a name of the new entry.", "quantifier": "all tables, all new entries made by the constructors with mincount <= 0, all command lines accepted with the old table", "why_tests_cant": "It compares two tables over all command lines; a clash of an abbreviation with the new name shows only on particular lines.", "anchors": ["src/argtable3.c: arg_parse, arg_parse_tagged, arg_parse_untagged, arg_parse_check, alloc_longoptions, alloc_shortoptions", "src/arg_getopt_long.c: parse_long_options"]}
{"id": "C62", "title": "Arrays inside an entry's memory block", "statement": "For every maxcount whose size fits size_t, each constructor allocates one block in which the struct and all its arrays lie without overlapping, and every array is aligned for its elements. (Found false in one point: with 4-byte int and 8-byte pointers, arg_end with an odd maxcount places its parent[] and argval[] arrays at misaligned addresses. And a negative maxcount makes the block smaller than the struct.)", "quantifier": "all maxcount, all addresses returned by malloc, all sizes and alignments allowed by C", "why_tests_cant": "A test sees a few values of maxcount on one machine, and misaligned access does not fail on x86.", "anchors": ["src/arg_lit.c: arg_litn", "src/arg_int.c: arg_intn", "src/arg_dbl.c: arg_dbln", "src/arg_str.c: arg_strn", "src/arg_file.c: arg_filen", "src/arg_date.c: arg_daten", "src/arg_rex.c: arg_rexn", "src/arg_rem.c: arg_rem", "src/arg_end.c: arg_end"]}
{"id": "C63", "title": "Printing to a stream", "statement": "The functions that print to a FILE* (arg_print_option, arg_print_syntax, arg_print_syntaxv, arg_print_glossary, arg_print_glossary_gnu, arg_print_formatted, arg_print_errors) add exactly the promised text to the stream, release all memory they allocate and leave all other memory unchanged; their _ds variants and the arg_make_*_msg functions append exactly the same text to the arg_dstr they are given, whatever was done to it before, and the object can still be destroyed without leak or memory error.", "quantifier": "all tables, texts and errors whose printed text has at most 500 million characters; all states of memory, of the stream and of the arg_dstr", "why_tests_cant": "The text passes through a buffer that grows in steps and a formatter that retries with larger buffers; a wrong step shows only for particular lengths, and a leak or stray access shows nowhere in the output.", "anchors": ["src/argtable3.c: arg_print_option, arg_print_syntax, arg_print_syntaxv, arg_print_glossary, arg_print_formatted, arg_print_glossary_gnu and their _ds variants", "src/arg_end.c: arg_print_errors, arg_print_errors_ds", "src/arg_cmd.c: arg_make_get_help_msg, arg_make_help_msg, arg_make_syntax_err_msg", "src/arg_dstr.c: arg_dstr_cat, arg_dstr_catc, arg_dstr_catf, arg_dstr_destroy"]}
{"id": "C64", "title": "arg_parse releases its memory", "statement": "Whenever arg_parse returns - whatever the table, the command line and the errors - it has released all memory it allocated (copy of argv, option tables, compiled regular expressions and their captures), has released nothing else, and has changed no other block; so a history of calls does not leak. It uses no block after releasing it, releases none twice, and the captures of a regular expression stay within their array and do not influence whether it matches. The same holds for the trial compilation in the arg_rex constructors.", "quantifier": "all tables made by the constructors (all patterns), all command lines, all states of memory, all histories of calls", "why_tests_cant": "A leak or a use after release shows nowhere in the output, and the number of captures, nodes and blocks depends on pattern and command line.", "anchors": ["src/argtable3.c: arg_parse, arg_parse_tagged, arg_parse_untagged, alloc_longoptions, alloc_shortoptions", "src/arg_rex.c: arg_rex_scanfn, arg_rexn, trex_compile, trex_free, trex_match, trex_matchnode"]}
{"id": "C65", "title": "Pointers into the command registry", "statement": "The registry frees every block it allocates exactly once: at any time there are two blocks for each registered command, and none after arg_cmd_uninit. A pointer returned by arg_cmd_info (or by the iterator functions) stays good, with the same contents, until the next arg_cmd_register or arg_cmd_unregister about the same name, and dangles from then on. Strings passed to the registry may lie in the registry's own memory, except that a command must not be registered again through a pointer into its own blocks: that, and only that, reads freed memory. Iteration shows every command once, with exactly the blocks that are allocated.", "quantifier": "all histories of registrations and unregistrations, all names, descriptions and pointers, any table growth", "why_tests_cant": "Use after free and leaks show nowhere in the output; which block is freed when depends on the whole history and on aliasing between arguments and registry.", "anchors": ["src/arg_cmd.c: arg_cmd_register, arg_cmd_unregister, arg_cmd_info, arg_cmd_uninit, arg_cmd_itr_create, arg_cmd_itr_advance, arg_cmd_itr_key, arg_cmd_itr_value, arg_cmd_itr_search", "src/arg_hashtable.c: arg_hashtable_remove, arg_hashtable_insert, arg_hashtable_destroy"]}
{"id": "C66", "title": "Memory of the module name and version", "statement": "arg_set_module_name and arg_set_module_version may be called any number of times, in any order: no call reads or writes outside its blocks or frees a block twice, the name and the version in force are those given last, memory of the client is left alone, and no memory accumulates: one block remains if a name was ever set and two if a version was ever set, whatever the number of calls. (These blocks are never released; the library has no function for it.)", "quantifier": "all finite sequences of the two calls, all C strings as names, tags up to 499 MB, all int version numbers, any previous contents of memory", "why_tests_cant": "A leak or a double release depends on the history of the calls and shows nowhere in the output.", "anchors": ["src/arg_cmd.c: arg_set_module_name, arg_set_module_version", "src/arg_dstr.c: arg_dstr_create, arg_dstr_catf, arg_dstr_cat, arg_dstr_destroy"]}
{"id": "C67", "title": "The bundled getopt functions", "statement": "A program that calls the bundled getopt, getopt_long or getopt_long_only until -1 is returned gets, for every option string (with +, -, :, ::, W; and any letters except byte 255), every array of long options and every argument vector, exactly the results a left-to-right reading of the arguments gives: codes, optarg, optopt, values stored through flag pointers and the texts of the error messages (which name the option as it was written), one per call. Afterwards the operands are at the end of the vector and optind is at the first; the other arguments keep their order and nothing is lost. getopt never changes the vector and always comes to an end; getopt_long and getopt_long_only never come to an end exactly when the reading meets a cluster of letters ended by a dash.", "quantifier": "all option strings without byte 255, all arrays of long options, all argument vectors, both settings of POSIXLY_CORRECT and opterr, fresh or restarted state", "why_tests_cant": "Option strings, abbreviations, clusters, optional values and operand permutation combine without bound, and the scanning state is carried from call to call.", "anchors": ["src/arg_getopt_long.c: getopt, getopt_long, getopt_long_only, getopt_internal, parse_long_options, permute_args", "src/arg_getopt.h"]}
{"id": "C68", "title": "Pointers into the command line stay inside the caller's strings", "statement": "The bundled getopt functions and arg_parse walk through the arguments with pointers, and hand out pointers: optarg, sval of arg_str and arg_rex, filename, basename and extension of arg_file, and the arguments kept with errors. For every argument vector, option string, long options and table, and any sequence of calls and restarts, no character before the start of an argument string or behind its terminating NUL is read; every pointer handed out points into one of the caller's argument strings (or is the empty string arg_str puts back on reset, or was in that cell before); and the text it points to is the value the argument has.", "quantifier": "all argument vectors (strings of any length, shared or overlapping suffixes), all sequences of getopt calls and restarts, all tables of objects made by the constructors, any earlier contents of the objects", "why_tests_cant": "Off-by-one pointer moves show only for particular combinations of cluster, empty value, last argument and permutation; a sanitizer sees only the executions it is given.", "anchors": ["src/arg_getopt_long.c: getopt_internal, parse_long_options", "src/argtable3.c: arg_parse_tagged, arg_parse_untagged, arg_register_error", "src/arg_str.c: arg_str_scanfn, arg_str_resetfn", "src/arg_file.c: arg_basename, arg_extension, arg_file_scanfn", "src/arg_rex.c: arg_rex_scanfn"]}
{"id": "C69", "title": "Single-dash long options in a build with ARG_LONG_ONLY", "statement": "When argtable3 is built with ARG_LONG_ONLY (the CMake option ARGTABLE3_LONG_ONLY), arg_parse reads the command line from left to right, trying each option argument, and each remaining end piece of a cluster of short options, as a long option first: the outcome (return value, entries, errors) is that of the deliveries and operands of this reading. Every declared long option may be given under its full name with one dash or with two, with the same effect, whatever short options are declared. A command line whose long options have two dashes and unambiguous names, and whose clusters consist of declared letters and contain no end piece that could be taken for a long name, has the same effect in both builds. For a table made by the constructors the call ends for every command line that has a reading; clusters of flags followed by a lone dash have none, and the call does not return, as in the other build.", "quantifier": "all tables, all command lines, both settings of POSIXLY_CORRECT, any earlier state of getopt", "why_tests_cant": "The build option is not exercised by the test suite, and whether a cluster is taken for a long option depends on the declared names, the declared letters and the position in the cluster.", "anchors": ["src/argtable3.c: arg_parse, arg_parse_tagged (ARG_LONG_ONLY)", "src/arg_getopt_long.c: getopt_long_only, getopt_internal, parse_long_options", "CMakeLists.txt: ARGTABLE3_LONG_ONLY"]}
{"id": "C70", "title": "Which texts arg_dbl accepts and what they mean", "statement": "With a C library whose strtod is that of the C standard (C locale), an arg_dbl with room left accepts exactly: white space followed by an optionally signed decimal or hexadecimal floating-point number, inf, infinity, nan or nan(...) in either case, and the empty text. It stores the value of the number so spelled, rounded as the library rounds (0 for the empty text); a number out of range is not an error. Every other text, among them numbers followed by white space or by a size suffix, is reported as a bad double and stores nothing. A text spells at most one number, and every decimal fraction has a spelling. After a successful arg_parse the values of an arg_dbl are the rounded numbers spelled by its arguments, in order.", "quantifier": "all argument strings, all conforming strtod functions and roundings, all tables and command lines", "why_tests_cant": "The set of spellings is infinite, the longest-prefix rule of strtod interacts with the comparison of the end pointer, and a test fixes one library.", "anchors": ["src/arg_dbl.c: arg_dbl_scanfn", "src/argtable3.c: arg_parse"]}
{"id": "C71", "title": "Running out of memory in arg_parse", "statement": "Whatever allocation fails, arg_parse never returns a wrong result: it either returns exactly what it returns with enough memory, with all memory released, or it ends in the panic function. The library's panic function writes 'Out of memory!' to stderr and ends the process (abort if EF_DUMPCORE is set and not empty, status 1 otherwise). If the program has installed a panic function that leaves by longjmp, then the argument table is intact at that moment: declarations unchanged, counts and arrays consistent, no other memory touched, at most six blocks lost; and after any history of calls that returned or were left this way, arg_parse behaves as with a fresh table.", "quantifier": "all supplies of memory (any allocation may fail, at any time), all tables, command lines and histories of returning and abandoned calls", "why_tests_cant": "Tests do not fail allocations; the crash points grow with the command line, and what a later call does after an abandoned one needs every history.", "anchors": ["src/arg_utils.c: panic, xmalloc, xcalloc, xrealloc, arg_set_panic", "src/argtable3.c: arg_parse, arg_parse_tagged, alloc_longoptions, alloc_shortoptions", "src/arg_rex.c: arg_rex_scanfn, trex_compile"]}
{"id": "C72", "title": "The sample in the message about a malformed date", "statement": "The message about a malformed date says 'correct format is', followed by a sample. The sample shows the date 1999-12-31 23:59:59 in the format of the entry, and the same arg_date accepts it.", "quantifier": "all date formats, all states of the entry with room for another date, all C libraries whose strftime is that of the C locale", "why_tests_cant": "The formats are an infinite language; a test tries one or two, and the upstream tests do not feed the sample back.", "anchors": ["src/arg_date.c: arg_date_errorfn, arg_date_scanfn, arg_strptime, conv_num"]}
{"id": "C73", "title": "Whole programs: no leak, no use after free", "statement": "A program may make any number of tables, preset members of the objects, parse command lines, print syntax, glossary and errors, and free tables, in any order and any number of times, as long as it does not use a table after freeing it. At every point the memory that the library holds is exactly one block for each object of the tables not yet freed; when all tables are freed, with arg_freetable or arg_free, all memory has been released, and no other memory of the program was released or changed. No step follows a NULL or dangling pointer or frees a block twice. Freeing a table again is harmless, using it follows a NULL pointer, and arg_nullcheck tells the two cases apart. arg_parse has the same result as in a program with no other table and no history.", "quantifier": "all programs (finite sequences of permitted calls) on any number of tables made by the constructors with any parameters, all command lines that arg_parse returns from, all initial memories", "why_tests_cant": "Each test is one program; leaks and dangling pointers depend on the order of calls on several tables.", "anchors": ["src/argtable3.c: arg_parse, arg_nullcheck, arg_free, arg_freetable, arg_print_syntax, arg_print_syntaxv, arg_print_glossary, arg_print_glossary_gnu", "src/arg_end.c: arg_end, arg_print_errors", "src/arg_rex.c: arg_rexn", "src/arg_dstr.c: arg_dstr_create, arg_dstr_destroy"]}
{"id": "C74", "title": "Every assignment of values can be written as a command line", "statement": "If the option names of a table do not clash, then any values that the entries admit (within their minimum and maximum numbers) can be passed to the program, whatever characters the texts contain: write each option with its first letter, a required value in an argument of its own, an optional one attached (or the long name with =), then --, then the operands. arg_parse returns 0 for this command line, with or without POSIXLY_CORRECT, and every entry stores exactly the values meant for it. Conversely every accepted command line says something that can be written in this way, with the same effect.", "quantifier": "all tables made of the public entry types without clashing names, all assignments of values to options and operands, all accepted command lines", "why_tests_cant": "The texts are arbitrary (they may look like options, be empty, contain =), as are the table and the number of values; a test tries a few texts.", "anchors": ["src/argtable3.c: arg_parse, arg_parse_tagged, arg_parse_untagged", "src/arg_getopt_long.c: getopt_long, getopt_internal, parse_long_options"]}
{"id": "C75", "title": "What arg_rex does with every text, for every pattern", "statement": "For every well-formed pattern (whose ranges are not taken for invalid ones, C53) and every argument the verdict of an arg_rex with room is determined by one walk through the pattern that never goes back: a character or a class takes the character it stands at, the terminating NUL included; a repetition takes pieces as long as it finds one (at most its upper bound or 65536), but stops as soon as their number is allowed and the following element, unless it may be empty, matches, and at the end of the text; the first matching alternative is taken. The argument is stored if the walk ends exactly at its end, reported otherwise, and the behaviour is undefined exactly if the walk looks beyond the NUL. In particular the kind of the groups, parentheses around a single atom, backslashes in front of characters and the spelling of repetitions (+ or {1,}) never matter, and a first alternative that matches only a part of the argument leads to its rejection.", "quantifier": "all well-formed patterns (deterministic or not), all arguments, both case modes, all states of the entry", "why_tests_cant": "Patterns and texts are unbounded; the rule for stopping repetitions depends on what follows, across groups.", "anchors": ["src/arg_rex.c: arg_rex_scanfn, trex_match, trex_matchnode, trex_matchclass, trex_matchcclass, trex_compile"]}
{"id": "C76", "title": "Every pattern of arg_rex is covered", "statement": "For every pattern given to arg_rex there are two possibilities. Either the pattern is written by a well-formed syntax tree all of whose ranges compile; then the constructor succeeds and the verdict on every argument (stored, reported as not matching, undefined) is the one of the walk through that tree (C75), whichever tree is taken. Or it is not; then the constructor has undefined behaviour, or every argument given to the entry has. The ranges that compile are known exactly: the number of parts of the pattern before the range must not exceed the code of the character its end starts with.", "quantifier": "all C strings as patterns (non-ASCII bytes included), all arguments, both case modes, all states of the entry", "why_tests_cant": "There are infinitely many patterns; that no pattern is read in a way the syntax trees do not describe is a statement about every string a recursive-descent compiler can accept.", "anchors": ["src/arg_rex.c:trex_compile", "src/arg_rex.c:trex_list", "src/arg_rex.c:trex_element", "src/arg_rex.c:trex_class", "src/arg_rex.c:trex_charnode", "src/arg_rex.c:trex_parsenumber", "src/arg_rex.c:arg_rexn"]}
{"id": "C77", "title": "Running out of memory while building and printing text", "statement": "A program has set a panic function that jumps back into the program. If a call on an arg_dstr object runs out of memory, the object keeps its string, and it can be used and destroyed afterwards like before: in any history with any number of failed calls the string is the one made by the calls that have returned, nothing is freed twice or read after it was freed, and after arg_dstr_destroy everything is released except at most one block for each call of arg_dstr_catf that failed. Calls that need no memory never fail. A function that prints to a dynamic string (arg_print_syntax_ds and so on) adds a part of its text from the beginning, at worst nothing; a function that prints to a stream prints all of its text or nothing, changes no memory of the program, and loses at most two blocks and the object.", "quantifier": "all histories of calls on an object, all patterns of failing allocations in each call, all tables and states whose output is defined, all heaps", "why_tests_cant": "Which of the allocations fails is not under a test's control, and an object with a stale pointer goes wrong only in some later call; one history and one failing allocation say nothing about the others.", "anchors": ["src/arg_dstr.c: arg_dstr_create, arg_dstr_set, arg_dstr_cat, arg_dstr_catc, arg_dstr_catf, setup_append_buf", "src/arg_utils.c: xmalloc, panic, arg_set_panic", "src/argtable3.c: arg_print_option, arg_print_syntax, arg_print_syntaxv, arg_print_glossary, arg_print_formatted, arg_print_glossary_gnu, arg_print_errors", "src/arg_cmd.c: arg_make_get_help_msg, arg_make_help_msg, arg_make_syntax_err_msg"]}
{"id": "C78", "title": "Running out of memory while registering commands and setting the module's name and version", "statement": "A program has set a panic function that jumps back into the program. After any history of arg_cmd_register and arg_cmd_unregister in which any allocations fail, the registry is intact: arg_cmd_info, arg_cmd_count and the iterator show exactly the commands whose latest call was a registration that returned, each with what that call gave; a command whose registration failed is not registered, even if it was before, and no other command is affected; no block is freed twice, and at most two blocks are lost for each failed call, everything else being released by arg_cmd_uninit. A failed arg_set_module_name or arg_set_module_version of a setting that had not been made before is as if it had not been made. If the setting had been made before, then what remains usable depends on the request that failed: after a failed arg_set_module_name the name can be neither shown nor set again; after a failed arg_set_module_version the old version may be shown and set again, or shown only, or neither; the other setting is never affected.", "quantifier": "all histories of registrations with any strings (also in the registry's own blocks), all patterns of failing allocations, all histories of settings followed by a failed one and any further ones, all heaps", "why_tests_cant": "Which allocation fails is not under a test's control; a dangling pointer or a half-done insertion shows in some later call only, and the table may be of any size when its enlargement fails.", "anchors": ["src/arg_cmd.c: arg_cmd_register, arg_cmd_unregister, arg_cmd_uninit, arg_set_module_name, arg_set_module_version, module_name, module_version", "src/arg_hashtable.c: arg_hashtable_insert, arg_hashtable_expand, arg_hashtable_remove", "src/arg_utils.c: xmalloc, panic, arg_set_panic"]}
{"id": "C79", "title": "Several dynamic strings do not interfere", "statement": "A client may have any number of arg_dstr objects at the same time and call the functions of the string builder on them in any order, including arg_dstr_cat(a, arg_dstr_cstr(b)) and arg_dstr_set(a, arg_dstr_cstr(b), ARG_DSTR_VOLATILE) with b another object. No such call does anything undefined. At the end each object that still exists has the string that its history of calls should give it. An object that gets no text from other objects has the string its own calls alone would have given it. Memory that was there before is neither changed nor freed. Once all objects are destroyed nothing they allocated is left, and for each object every string handed over with a function of the client's has been passed to that function exactly once and in order.", "quantifier": "all histories of create/set/cat/catc/catf/reset/destroy calls over any number of objects, interleaved in any way, with C strings of any bytes, all initial heaps; texts up to 500 million characters; objects are used only while they exist and are not given their own string", "why_tests_cant": "The number of interleavings of histories over several objects is unbounded; interference through shared or stale pointers shows only for particular combinations of storage kinds.", "anchors": ["src/arg_dstr.c:arg_dstr_create", "src/arg_dstr.c:arg_dstr_destroy", "src/arg_dstr.c:arg_dstr_set", "src/arg_dstr.c:arg_dstr_cat", "src/arg_dstr.c:arg_dstr_catc", "src/arg_dstr.c:arg_dstr_catf", "src/arg_dstr.c:arg_dstr_reset", "src/arg_dstr.c:arg_dstr_cstr"]}
{"id": "C80", "title": "Changing the commands while walking through them with an iterator", "statement": "A program creates an iterator over the registered commands and, between its calls of arg_cmd_itr_advance, registers and unregisters commands in any order. If it leaves alone the command at which the iterator stands, and never has more commands than 35 (or than it had at some time before the walk), then nothing undefined happens; whatever the iterator shows is registered at that moment; no name is shown twice; every command that was there at the start and is not changed is shown exactly once by the time arg_cmd_itr_advance returns 0; and the walk ends after at most as many steps as there were commands at the start and registrations since. Both conditions are needed: after a change of the very command at which the iterator stands, looking at the iterator or advancing it uses freed memory; and if the table has to grow during the walk, a command may be shown several times and another not at all.", "quantifier": "all histories of registrations and removals before the walk, all sequences of steps and changes during it, all names and descriptions within the limits; any load limit that grows with the table", "why_tests_cant": "Which interleavings of steps and changes go wrong depends on the buckets of the names and on when the table grows; a test sees one arrangement of the buckets.", "anchors": ["src/arg_cmd.c:arg_cmd_itr_create", "src/arg_cmd.c:arg_cmd_itr_advance", "src/arg_cmd.c:arg_cmd_itr_key", "src/arg_cmd.c:arg_cmd_itr_value", "src/arg_cmd.c:arg_cmd_register", "src/arg_cmd.c:arg_cmd_unregister", "src/arg_hashtable.c:arg_hashtable_itr_advance", "src/arg_hashtable.c:arg_hashtable_expand"]}
{"id": "C81", "title": "A program that survives running out of memory", "statement": "A program has set a panic function that jumps back into the program, and carries on. It constructs tables (storing each pointer in an array that was set to NULL before), changes fields it may change, parses, prints syntax, glossary and errors, and frees tables with arg_freetable or arg_free, in any order, with any of the allocations failing. Every legal call returns or runs out of memory; none uses released memory or a NULL pointer, or releases a block twice. A call that returns has done exactly what it does with plenty of memory. A call that runs out of memory writes nothing to the stream, releases nothing and changes no other table; a table that was being parsed keeps its declarations and can be parsed again as if that call had not been made; an array whose construction was broken off has the pointers of the objects made so far, each to a block of the right size, and NULL from there on, arg_nullcheck returns 1 for it, and arg_freetable and arg_free release exactly those blocks. At every point the allocated blocks are those of the tables not yet freed and of such arrays, and at most six more for each call that has run out of memory; so when all has been freed nothing is left but those.", "quantifier": "all histories of calls on any number of tables with any constructors, all patterns of failing allocations in each call, all command lines (with the exclusions of C23, C34, C35), all heaps", "why_tests_cant": "Which allocation fails is not under a test's control; a lost or doubly released block, or an inconsistent count, shows only in some later call, and the histories are unbounded.", "anchors": ["src/argtable3.c: arg_parse, arg_freetable, arg_free, arg_nullcheck, arg_print_syntax, arg_print_glossary", "src/arg_rex.c: arg_rexn, arg_rex_scanfn, trex_compile", "src/arg_end.c: arg_end, arg_print_errors", "src/arg_dstr.c: arg_dstr_create, arg_dstr_cat", "src/arg_utils.c: xmalloc, panic, arg_set_panic"]}
{"id": "C82", "title": "Which callbacks are called, and callbacks that share memory", "statement": "A table may have entries of the program's own types, with reset, scan and check functions of its own. These may share memory, and the same object may be listed more than once. arg_parse calls them in this order and makes no other calls: the reset function of every entry that has one, in table order; the scan functions for the options, in the order of the command line; the scan functions for the operands, each entry that takes operands being offered them one after the other until it rejects one, which is then offered to the following entries; and, only if no error has been recorded until then, the check function of every entry that has one, in table order. The effect on memory is that of these calls one after the other. Each code other than 0 is recorded as an error (of operands only the last rejection of one that nobody took), and the return value is the number of errors that the arg_end has room for. If the callbacks always return, arg_parse returns for every command line that can be read, and command line and memory determine the calls and the result. Reset and check functions may change getopt's variables and may call arg_parse themselves; a scan function may not: there are calls of arg_parse in a scan function that make the outer call read the same option for ever. With distinct objects this is the arg_parse of the other properties.", "quantifier": "all tables with any callbacks on any common memory, all command lines, all states of getopt's variables, all sizes of the arg_end", "why_tests_cant": "Tests use the built-in types, whose callbacks touch only their own object. For callbacks that depend on each other the order of the calls is observable, and no set of samples covers all callbacks, all memories and all command lines.", "anchors": ["src/argtable3.c: arg_parse, arg_parse_tagged, arg_parse_untagged, arg_parse_check, arg_reset", "src/argtable3.h: arg_hdr, arg_resetfn, arg_scanfn, arg_checkfn", "src/arg_getopt_long.c: getopt_internal, optind, optreset"]}
{"id": "C83", "title": "The work of arg_parse is bounded by the size of the command line and of the table", "statement": "If arg_parse returns for a command line, it does so after at most as many calls of getopt_long as there are characters on the command line (argv[0] not counted), and one more. It calls at most three callbacks for each entry of the table (its reset function, its scan function for an operand it rejects, and its check function), and besides one for each character and one for each argument of the command line.", "quantifier": "all tables with any callbacks, all command lines, all states of getopt's variables", "why_tests_cant": "A loop that takes too many rounds, or for ever, on some combination of options, clusters, operands and declarations shows only on that combination; the bound is for all of them.", "anchors": ["src/argtable3.c: arg_parse, arg_parse_tagged, arg_parse_untagged, arg_parse_check", "src/arg_getopt_long.c: getopt_long, getopt_internal"]}
{"id": "C84", "title": "A whole program: tables, strings, name, version and commands side by side", "statement": "For every program that creates and parses and prints and frees any number of tables, works with any number of arg_dstr objects, sets module name and version and registers and unregisters commands, in any order and interleaving, and lets arg_print_*_ds, arg_make_get_help_msg, arg_make_help_msg and arg_make_syntax_err_msg write to its own arg_dstr objects: no legal call does anything undefined; every arg_dstr object holds the string that the calls about it say; name, version and registered commands are those set last, and the messages show them; arg_parse does exactly what it does in a program without the other parts; every block of memory allocated since the start belongs to exactly one table, string, name, version or client text, and nothing else is changed; and when all tables are freed and all objects destroyed only the name, the version with its tag and the client's static texts are left, with each string handed over with a client function given to that function exactly once.", "quantifier": "all finite sequences of legal calls of the named functions, in every interleaving, from every initial memory, stream and state of getopt", "why_tests_cant": "the interleavings of calls to parts that share one heap are unbounded; a test program runs one of them", "anchors": ["src/argtable3.c:arg_parse", "src/argtable3.c:arg_freetable", "src/argtable3.c:arg_print_syntax_ds", "src/arg_dstr.c:arg_dstr_cat", "src/arg_dstr.c:arg_dstr_destroy", "src/arg_cmd.c:arg_set_module_name", "src/arg_cmd.c:arg_set_module_version", "src/arg_cmd.c:arg_cmd_register", "src/arg_cmd.c:arg_make_help_msg", "src/arg_cmd.c:arg_make_get_help_msg", "src/arg_cmd.c:arg_make_syntax_err_msg"]}
{"id": "C85", "title": "A table is what comes before its first end marker, and a hole in it is found by arg_nullcheck", "statement": "Whatever array of pointers is passed as a table: arg_print_syntax and arg_print_syntaxv print exactly the entries before the first arg_end or NULL pointer; if no NULL pointer comes before the first arg_end, arg_print_glossary and arg_print_glossary_gnu list exactly the entries before it, and arg_parse works with those and with this arg_end; cells after it never matter, even if they are NULL or dangling. arg_nullcheck returns 0 exactly in that case and 1 exactly if a NULL pointer comes first, so a program that checks it never has arg_parse read through NULL. (Limits, also proved: with a NULL pointer before the first arg_end arg_parse and the glossary functions read through it; without either marker no function stays inside the array.)", "quantifier": "all arrays of pointers, all contents of memory, all tables of objects, all command lines", "why_tests_cant": "the arrays, the position of the markers and what lies behind them are unbounded", "anchors": ["src/argtable3.c:arg_print_syntax_ds", "src/argtable3.c:arg_print_syntaxv_ds", "src/argtable3.c:arg_print_gnuswitch_ds", "src/argtable3.c:arg_print_glossary_ds", "src/argtable3.c:arg_print_glossary_gnu_ds", "src/argtable3.c:arg_reset", "src/argtable3.c:arg_endindex", "src/argtable3.c:arg_parse", "src/argtable3.c:arg_nullcheck"]}
{"id": "C86", "title": "Integer variables never overflow and *idx names the long option", "statement": "With the int variables of the C code (32 bits, -1 for none, nonzero for true): a call of getopt, getopt_long or getopt_long_only with fewer than INT_MAX arguments and at most INT_MAX long options performs no overflowing operation, no division by zero and no access outside the vector, whatever the operands and options and however the vector is permuted; the codes, optarg, optopt, optind, messages and the final vector are those of the unbounded description (C67), and the variables are again fit for the next call. If the call passes a variable for the index, then after a code that belongs to a long option it holds the position of that option in the array. arg_parse with fewer than INT_MAX arguments and entries gives the same results as with unbounded numbers; with INT_MAX arguments the size of its copy of argv overflows.", "quantifier": "all argument vectors, option strings and long options below the limits, all states of getopt's variables, all tables", "why_tests_cant": "vectors of all lengths up to 2^31 and all permutations of operands and options", "anchors": ["src/arg_getopt_long.c:gcd", "src/arg_getopt_long.c:permute_args", "src/arg_getopt_long.c:parse_long_options", "src/arg_getopt_long.c:getopt_internal", "src/argtable3.c:arg_parse_tagged", "src/argtable3.c:arg_parse_untagged", "src/argtable3.c:arg_parse_check", "src/argtable3.c:arg_reset", "src/argtable3.c:arg_parse"]}
{"id": "C87", "title": "Threads with their own tables do not disturb each other if arg_parse is protected by a mutex", "statement": "Let several threads, each with its own table, call arg_parse and the printing functions, with a mutex around arg_parse only. In whatever order they get the processor, at every moment each thread has seen exactly the return values, entry contents, error records and texts that it would have seen as the only thread, whatever getopt's variables were before; if every thread's program works alone then no order leads to an undefined operation or a deadlock, under a fair scheduler all threads finish, and when they have finished each has seen what its program sees alone. (Also proved: without the mutex an option of one thread's command line is silently given to another thread's table, and memory behind a vector is written.)", "quantifier": "all numbers of threads, all tables, all programs of the threads, all schedules, all states of getopt's variables", "why_tests_cant": "the number of schedules is unbounded and races are rarely hit by tests", "anchors": ["src/argtable3.c:arg_parse", "src/argtable3.c:arg_parse_tagged", "src/argtable3.c:arg_parse_untagged", "src/arg_getopt_long.c:getopt_internal", "src/argtable3.c:arg_print_syntax", "src/argtable3.c:arg_print_errors"]}
{"id": "C88", "title": "How much work an arg_rex does", "statement": "Count the calls of the matching function while arg_rex checks one argument. A pattern without repetitions takes at most one call per character of the pattern and one more, however long the argument. If nothing that may be empty is repeated, the number is at most (n+2)^r times the length of the pattern plus one, for an argument of n characters and r repetitions. For every pattern it is at most 65537^r times the length of the pattern plus one, whatever the argument. (Also proved: the exponent cannot be smaller: the pattern a*(a*(...(b))) with k stars makes at least n-choose-k calls for an argument of n times the letter a, n up to 65535. And the bound for all patterns is no idle worry: the pattern (((a*)*)*...)* with k pairs of parentheses makes at least 65536^k calls for the argument b, so that eleven characters make a program hang.)", "quantifier": "all patterns, all arguments, both case modes, all states of the entry", "why_tests_cant": "a bound on the work for every pattern and argument; tests measure a few", "anchors": ["src/arg_rex.c:trex_matchnode", "src/arg_rex.c:trex_match", "src/arg_rex.c:arg_rex_scanfn"]}
{"id": "C89", "title": "arg_mgsort with any comparison function: a permutation, bounded work, bounded memory", "statement": "Whatever the comparison function passed to arg_mgsort does (it may contradict itself, depend on or change the state of the program, or leave by longjmp), and whichever requests for memory are refused: for arrays within the int bounds the sort never touches memory outside the array and its temporary block, and when control leaves it the range holds a permutation of its elements with the rest of the array unchanged. Sorting n elements takes at most n*ceil(log2 n) - 2^ceil(log2 n) + 1 comparisons, exactly ceil(log2 n) + 1 nested calls, n - 1 requests for memory, and never more than n elements' worth of memory at a time; all of it is released when the sort returns or calls the panic function. (Also proved: if the comparison function leaves by longjmp the temporary block is leaked.)", "quantifier": "all arrays within the int bounds, all element sizes, all stateful comparison functions, all patterns of refused memory, all states of the program", "why_tests_cant": "an inconsistent or stateful comparison function has unboundedly many behaviours; the bound on the work is for every input", "anchors": ["src/arg_utils.c:arg_mgsort", "src/arg_utils.c:merge", "src/arg_utils.c:xmalloc", "src/arg_utils.c:xfree"]}
{"id": "C90", "title": "What a dynamic string costs: memory bounded by the present text, logarithmic growth, quadratic appending", "statement": "After any history of arg_dstr_set / _cat / _catc / _catf / _reset calls, the object holds at most one allocated block, of at most max(200, 2(n+1)) bytes where n is the length of its present text (a long text that was replaced leaves nothing behind). A text of n characters that was made by appending, however many calls that took, allocated its buffer at most about log2(n/50) times. One call of arg_dstr_cat of m characters to n looks at no more than 5(n+m)+208 bytes, a new buffer included, but also at no fewer than the n characters already there; so making a text of m characters with arg_dstr_catc looks at no fewer than m(m+1)/2 bytes (and no more than m(5m+205)): quadratic, not linear, in its length.", "quantifier": "all histories of calls that bring no more than 500 million characters, all strings and characters without NUL, all lengths", "why_tests_cant": "The memory bound and the growth count quantify over all histories and lengths, and the lower and upper bounds on the work over all lengths; a test measures some sizes, and the quadratic term is invisible at the sizes tests use.", "anchors": ["src/arg_dstr.c: setup_append_buf", "src/arg_dstr.c: arg_dstr_cat", "src/arg_dstr.c: arg_dstr_catc", "src/arg_dstr.c: arg_dstr_catf", "src/arg_dstr.c: arg_dstr_set", "src/arg_dstr.c: arg_dstr_reset"]}
{"id": "C91", "title": "How deep an arg_rex recurses: bounded by the pattern alone, exactly", "statement": "The functions that compile the pattern of an arg_rex and match an argument with it are recursive. For every pattern that compiles, a stack with room for as many nested calls of them as the pattern has characters, plus one, is enough to check any argument, however long it is: the result is that of an unlimited stack. For a pattern that is rejected, twice its length plus two is enough to read it. Neither bound can be lowered: ((...(a)...)) with 2k+1 characters needs room for exactly 2k+2 calls, k opening parentheses need exactly 2k+2. Matching alone needs no more nested calls than the compiled pattern has nodes, and for ((...(a)...)) no fewer, whatever the text. So an argument given by the user cannot exhaust the stack; only the pattern, which the program supplies, can.", "quantifier": "all patterns, all arguments of any length, both case modes, all depths of nesting, all stack sizes", "why_tests_cant": "A recursion that grows with the argument shows only for arguments long enough to overflow the stack; that none exists quantifies over all texts and all patterns, and the greedy look-ahead makes the nesting of calls depend on both.", "anchors": ["src/arg_rex.c: trex_list", "src/arg_rex.c: trex_element", "src/arg_rex.c: trex_matchnode", "src/arg_rex.c: trex_compile", "src/arg_rex.c: trex_match", "src/arg_rex.c: arg_rex_scanfn"]}
{"id": "C92", "title": "Following the usage line works", "statement": "The line printed by arg_print_syntax can be followed literally: write the switches in one argument, then each other item as often as it is shown, with an admissible value in place of each data type (`-c VALUE` as two arguments, `--name=VALUE` as one). arg_parse then returns 0 and each entry stores exactly the values written for its item (with POSIXLY_CORRECT, if the operands come last in the table). All the alternatives listed by arg_print_syntaxv and the glossaries are interchangeable. The claim needs tables in which no switch is required more than once and no option with a letter has an optional value; otherwise the line misleads: a switch required twice is shown once, so that nobody who follows the line is accepted; `-c value` for an item shown as `-c [VALUE]` means `value -c`; and `--name=` for an item shown as `--name=[VALUE]` is always an error.", "quantifier": "all tables made of the public entry types whose names do not clash, all ways to follow the line (which optional switches and repetitions are used, all values), any earlier state", "why_tests_cant": "It relates everything that can be printed to everything that can be parsed; a test follows one usage line in one way.", "anchors": ["src/argtable3.c: arg_print_syntax_ds, arg_print_gnuswitch_ds, arg_cat_option, arg_cat_optionv, arg_print_syntaxv_ds", "src/argtable3.c: arg_parse, arg_parse_tagged, arg_parse_untagged", "src/arg_getopt_long.c: getopt_long"]}
{"id": "C93", "title": "An error is not repaired by what follows", "statement": "If arg_parse reports, for a command line whose last option does not wait for its value, an error other than a missing mandatory entry (an unknown or ambiguous option, an unwanted or rejected value, an unexpected operand), then it also reports errors for every longer command line that begins with it; and as long as the error table has room, every error of the shorter line is reported again, in the same order. So, on the way to an accepted command line, the only thing arg_parse can find wrong with the first arguments is that entries are still missing.", "quantifier": "every argument table made by the constructors, every command line, every continuation of it, both settings of POSIXLY_CORRECT, every prior state of getopt's variables", "why_tests_cant": "it compares the outcome of a command line with the outcomes of its infinitely many continuations, in which later options are delivered before earlier operands", "anchors": ["src/argtable3.c: arg_parse, arg_parse_tagged, arg_parse_untagged", "src/arg_getopt_long.c: getopt_internal, permute_args"]}
{"id": "C94", "title": "What the command registry costs", "statement": "Looking up, dispatching to or unregistering a command makes one search: it looks at no more entries than there are registered names in the bucket of the name and calls strcmp at most once for each registered name with the same 32-bit hash value (exactly these numbers if the name is not registered); registering makes one such search for a new name and at most two for a known one. The table only grows when there are more commands than ever before: its size is determined by the largest number n of commands that were ever registered at one time (53, or at most 3.2 n), and over any history of registrations and removals at most 2 n + 105 entries are moved in total. No better bound than the number of commands holds for one search: for every n there are n names, of letters only, that all have to be compared.", "quantifier": "all histories of registrations and removals, all names, descriptions and contexts; all growing load limits for the exact statements, the library's 65 percent for the numbers", "why_tests_cant": "The total over a history depends on all orders of registrations and removals, across 26 table sizes up to 1.6 thousand million, and on which names share a bucket.", "anchors": ["src/arg_hashtable.c: arg_hashtable_expand, arg_hashtable_insert, arg_hashtable_search, arg_hashtable_remove", "src/arg_cmd.c: arg_cmd_register, arg_cmd_unregister, arg_cmd_info, hash_key"]}
{"id": "C95", "title": "Bytes above 127 and the functions of <ctype.h>", "statement": "argtable3 passes plain chars to isspace, toupper, isprint and the like. If all the texts involved are ASCII, every call is defined. Otherwise, where char is signed, scanning a value for arg_int, arg_date or arg_rex and laying out a glossary text give the result they give where <ctype.h> is defined for every char, or have undefined behaviour. For arg_int the arguments with undefined behaviour are exactly those in which a byte from 128 to 254 is the first character behind white space, stands directly behind a leading zero, or is reached behind the number while a suffix is looked for; no argument that is taken as a number is among them. A date format or a pattern in which such a byte comes first or behind plain characters, an argument beginning with such a byte for a pattern like \\w, and a glossary text beginning with such a byte have undefined behaviour.", "quantifier": "all arguments, patterns, date formats, glossary texts (as sequences of bytes), columns, and states of the entry", "why_tests_cant": "The calls are undefined behaviour that common C libraries tolerate, so tests pass; which of infinitely many texts reach such a call depends on how far each scan proceeds.", "anchors": ["src/arg_int.c: strtol0X, detectsuffix, arg_int_scanfn", "src/arg_date.c: arg_strptime, arg_date_scanfn", "src/arg_rex.c: trex_escapechar, trex_charnode, trex_parsenumber, trex_matchcclass, trex_matchclass, trex_matchnode, arg_rex_scanfn", "src/argtable3.c: arg_print_formatted_ds"]}
{"id": "C96", "title": "Other bounds for the same entries: what a change of mincount and maxcount does", "statement": "Let a command line be accepted with an argument table (arg_parse returns 0), and change only the bounds of the entries. If no upper bound is lowered, and of the entries without option names at most the last one has its upper bound raised, then the command line still gives every entry the same values; arg_parse returns the number of entries that now have fewer values than their lower bound, as far as the arg_end has room. So relaxing bounds never invalidates a command line, nor changes what it means; and with the same upper bounds a command line is accepted with the stricter lower bounds exactly if it is accepted with the laxer ones and gives every entry enough values. In the same way for upper bounds: a command line that is accepted with the laxer bounds, and gives every entry a number of values that the stricter bounds allow, is accepted with these too, with the same values; so a command line is accepted with the stricter bounds exactly if it is accepted with the laxer ones (raised as described) and the numbers of values are within the stricter ones. Raising the upper bound of an entry for operands that is followed by another one can make an accepted command line an error.", "quantifier": "all tables made of the public entry types (all patterns and formats), in any earlier state, all such changes of the bounds, all command lines, with and without POSIXLY_CORRECT", "why_tests_cant": "The statement relates two runs on two different tables for every command line, every value and every pair of bounds; tests can only try some pairs.", "anchors": ["src/argtable3.c: arg_parse, arg_parse_tagged, arg_parse_untagged, arg_parse_check", "src/arg_int.c: arg_intn, arg_int_scanfn, arg_int_checkfn", "src/arg_lit.c: arg_litn, arg_lit_scanfn", "src/arg_str.c: arg_strn, arg_str_scanfn", "src/arg_file.c: arg_filen, arg_file_scanfn", "src/arg_date.c: arg_daten, arg_date_scanfn", "src/arg_rex.c: arg_rexn, arg_rex_scanfn", "src/arg_dbl.c: arg_dbln, arg_dbl_scanfn"]}
{"id": "C97", "title": "Errors elsewhere do not affect an entry: a help switch can be trusted on a wrong command line", "statement": "After arg_parse, whether it reported errors or not, an entry with option names depends only on the arguments that its own options were given: it holds exactly the values of those that it takes (it has room for them and admits their text), in order, and passes over the others. Unknown options, bad values of other entries and surplus operands change nothing; nor does the rest of the table. The entries without option names depend only on the operands and on each other. In particular the count of an arg_lit is the number of times that it was given, up to its maxcount, so a program that looks at its help switch before it looks at the errors sees a positive count exactly if help was asked for.", "quantifier": "all pairs of tables that share the entry, all pairs of command lines that give it the same arguments, with any errors in them; for the values: all public entry types (arg_rex with deterministic patterns), all command lines with arguments of at most 65535 characters", "why_tests_cant": "The statement says that an unbounded set of other things (every other entry, every other argument, every error) has no influence; tests can vary only a few of them.", "anchors": ["src/argtable3.c: arg_parse, arg_parse_tagged, arg_parse_untagged", "src/arg_lit.c: arg_lit_scanfn", "src/arg_int.c: arg_int_scanfn", "src/arg_str.c: arg_str_scanfn", "src/arg_end.c: arg_register_error"]}
{"id": "C98", "title": "Commands may use the registry while they run", "statement": "A function called by arg_cmd_dispatch may itself register, unregister, look up, count and dispatch commands, write to the result string and use the program's memory, to any depth. It may replace or remove any command, including itself and those that called it: nothing that has been freed is used. Every dispatch calls the procedure and context of the latest registration of the name at that moment, with the given command line; its effects happen before what follows in the caller; after it returns the caller goes on even if its own command is gone or replaced. The result, the text written, the program's memory and the registry are exactly those that the calls made, in this order, give; the only undefined behaviour is that of the documented assertions (dispatch of a name that is not registered or has no procedure, names or descriptions that are too long).", "quantifier": "all programs of commands, given as trees of calls in which each call may depend on all earlier results, all histories of the registry, any depth of nesting and any table growth", "why_tests_cant": "Commands can call each other and change the registry in unboundedly many ways; whether something freed is used depends on the order of nested calls, of which tests see only a few.", "anchors": ["src/arg_cmd.c: arg_cmd_dispatch, arg_cmd_register, arg_cmd_unregister, arg_cmd_info, arg_cmd_count", "src/arg_hashtable.c: arg_hashtable_search, arg_hashtable_insert, arg_hashtable_remove"]}
{"id": "C99", "title": "How many exchanges rearranging the arguments takes", "statement": "To read operands and options in any order, arg_parse moves options before operands in its copy of argv by exchanging elements. Moving a block of options before a block of operands takes exactly as many exchanges as the two blocks have elements. Without POSIXLY_CORRECT the number of exchanges of a call of arg_parse that returns is exactly the sum, over the blocks of arguments that are not operands (options and their values, up to the next operand, to -- included, or to the end) and that follow n > 0 operands, of n plus the length of the block. For a command line with n operands and m other arguments (options, their values, --), a call of arg_parse that returns has made at most 1+2+…+n+m exchanges; so never more than 1+2+…+(argc-1). It makes none when POSIXLY_CORRECT is set or when there are no operands; and, without POSIXLY_CORRECT, it makes none exactly when the command line reads the same (the same options with the same values, the same operands) as it would with POSIXLY_CORRECT. The bound is attained: k operands and k flags in turn take exactly 1+2+…+k+k exchanges, for every k, so the time is quadratic in the number of arguments, not worse and in general not better.", "quantifier": "every argument table with well-formed declarations and any callbacks, every command line that arg_parse returns from, every earlier state of getopt's variables, POSIXLY_CORRECT set or not, every k", "why_tests_cant": "It is a bound on the work for command lines of every length and shape; a test measures a few.", "anchors": ["src/arg_getopt_long.c: permute_args, getopt_internal", "src/argtable3.c: arg_parse, arg_parse_tagged"]}
