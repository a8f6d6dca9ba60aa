# Formal model of argtable3 in Lean 4 — design

Everything is in `lean/Verif`.  `Model/*` follows the C code function by function, `Spec/*` holds
small independent specifications, `Proofs/*` holds helper lemmas, `Props/*` holds the property
theorems (named after the property id) together with the concrete cases that meet their hypotheses.

## Modelling conventions

* A C string is `CStr = List Char`: the bytes before the terminating NUL.  `[]` is the string whose
  first byte is NUL.  A pointer into a string is the remaining suffix.  `char` is signed: bytes
  128..255 convert to negative ints.
* `M = Except Fault`: `Fault.ub why` is undefined behaviour / memory error (index outside an
  allocation, NULL dereference, division by zero, signed overflow), `Fault.fuel` means that a loop
  which is not obviously terminating ran out of its step budget.  "Terminates with r" is
  `∃ n, ∀ fuel ≥ n, run fuel = ok r`; "never returns" is `∀ fuel, run fuel` is not `ok`.
* The environment is a parameter: `getenv("POSIXLY_CORRECT")`, `strtod`, `strftime`.
* `malloc` never fails (the code's `xmalloc` aborts the process on failure).
* Argument counts and indices are unbounded naturals where the C code uses `int`.  That this makes no difference for
  getopt and `arg_parse` below `INT_MAX` arguments is C86; `count` members beyond 2^31 are not modelled.  The arithmetic of *values* (arg_int) is modelled with
  the exact 64-bit `long` and 32-bit `int` limits.

## Configuration modelled

Linux, `ARG_REPLACE_GETOPT=1` (the bundled getopt, default), no `ARG_LONG_ONLY` (except in C69), `GNU_COMPATIBLE`
defined (as in the source), C locale, no `_WIN32` branches.

## Plan per property

| id | what is modelled | how it is proved |
|----|------------------|------------------|
| C01 termination of arg_parse | getopt, tagged loop with fuel | simulation of the loop by a structural tokenizer; divergence of `-x-` by an invariant over fuel; together an iff |
| C02 refinement | getopt_internal, permute_args, parse_long_options, arg_parse* | layout invariant `argv = P ++ skipped ++ options ++ rest` kept by every getopt call; induction on the remaining arguments |
| C03 interleaving | corollary of C02 | permutation lemma on the tokenizer |
| C04 `--` | corollary of C02 | induction over the prefix |
| C05 clusters | corollary of C02 | induction over the cluster |
| C06 values | corollary of C02 | case analysis on tokenizer |
| C07 abbreviations | parse_long_options match loop | loop invariant, refinement to a declarative resolution |
| C08 counts | scan functions, arg_parse | invariant over every scan |
| C09 memory safety | scan functions, register_error | absence of `ub` from the invariant "array length = maxcount" |
| C10 error recording | arg_register_error | induction over the list of errors |
| C11 operands | arg_parse_untagged | induction over operands and entries |
| C12 history independence | arg_parse with arbitrary initial state | consequence of C02 (spec mentions no state) and reset lemmas; counterexamples for the two corners |
| C13 argv | argvcopy | permutation follows from C14 |
| C14 permute_args | the cycle-leader loop | residues mod gcd; inner-loop invariant |
| C15 option tables | alloc_longoptions, alloc_shortoptions with buffer bounds | induction over strings; counterexamples |
| C16 missing | arg_parse_check | induction over table |
| C17 arg_rem | parse over table with/without rem entries | table-index embedding |
| C18 silence | warnx log in getopt state | invariant `opterr = 0` |
| C19 duplicates | find_shortoption, long match | from C02 |
| C20 POSIXLY_CORRECT | from C02 | |
| C21–C23 integers | strtol0X, strtol, detectsuffix, arg_int_scanfn | digit-list semantics; round trip by induction on digits |
| C24 rejected argument | all scan functions | case analysis |
| C25 arg_dbl | scan with strtod as parameter | case analysis |
| C26 arg_str | scan sequence | induction |
| C27 arg_file | basename/extension | induction on string |
| C28–C31 dates | arg_strptime | induction over the format; digit lemmas |
| C32–C35 regex | trex compiler and matcher with node array | node-index measure; literal patterns by induction |
| C36–C38 dstr | heap model with block ids | representation invariant over operations |
| C39–C40 hash table | bucket array of chains | abstraction to association list, invariant "entry in bucket of its hash" |
| C41 commands | arg_cmd over hash table | refinement to finite map |
| C42–C43 sort | mgsort/merge on arrays, with the `int` arithmetic on positions and byte offsets | induction on range; counterexample for stability |
| C44–C48 printing | arg_cat*, print functions as text producers | prefix lemma for bounded append; induction |
| C49–C50 tables | nullcheck, free | induction |
| C51 constructors | all constructors | case analysis |
| C53 regular expressions: soundness | `trex_compile`, `trex_matchnode` on patterns given as syntax trees (Spec/Regex.lean) | the compiled nodes represent the tree (induction on the tree along the recursive-descent compiler); matching nodes is sound for the tree (induction on the tree) |
| C54 regular expressions: exactness | the same functions, patterns that are deterministic (Spec/RegexDet.lean) | the non-backtracking matcher finds the only way: induction on the tree with the set of characters that may follow; reads stay inside the text |
| C55 help messages | `arg_set_module_*`, `arg_make_*_msg` on top of the printing, parsing and registry models (Model/Help.lean) | composition of C41, C45, C47, C48 with the history of the module variables |
| C56 values stored | no new model; Spec/Stored.lean describes the content of each kind of entry after a list of arguments | invariant of the deliveries and of the distribution of operands, composed with the scanners' theorems (C21-C27, C31, C53) |
| C57 right command lines | no new model; Spec/Entered.lean is a grammar of error-free command lines | both directions: grammar ⇔ tokeniser without failures; what an entry admits ⇔ what its scan function accepts; distribution of operands is the greedy one |
| C58 spelling of options | no new model; Spec/Spelling.lean says which option arguments give which values | the tokenised form depends only on the values given; `C10` locality of reading |
| C59 order of options | as C58 | deliveries to different entries commute (deliverAll as independent per-entry folds) |
| C60 order of entries | no new model | exchange of two adjacent entries renumbers the readings (`tokenize_ren`, `meaning_swp`); an allowed permutation is a sequence of such exchanges (`moves_of_perm`) |
| C61 one more entry | no new model | an accepted line is a `Line`; lookups in the longer table find the same options (`line_extend`), the new entry is only reset (`meaning_extend`); then it is moved to its place (`meaning_leftwards`) |
| C62 layout of objects | size and address computations of all constructors, `size_t` arithmetic with wrap-around, sizes and alignments as parameters (Model/Layout.lean) | arithmetic; `arg_end`'s alignment is an iff, refuted for odd `maxcount` on LP64 |
| C63 printing at work | the `_ds` functions as sequences of arg_dstr calls on the heap model, and the functions that print to a `FILE *` (Model/Stream.lean) | each appends exactly the text of its text function (C44-C48, C55): compositional lemma on top of the arg_dstr invariant (`Appends`); memory balance from C37's invariant |
| C64 memory of arg_parse | `arg_parse` again, with the blocks it allocates (argv copy, option tables, compiled regular expressions with their captures), each access checked (Model/ParseMem.lean, Model/RexMem.lean) | simulation: the run with memory does what the run without memory does and adds only dead blocks (`LiftH`); captures stay in their array because the compiler numbers them below the count (`CapsFit`) |
| C65 pointers into the registry | arg_cmd.c once more, with string arguments as pointers that may lie in the registry's blocks, and the iterator functions (Model/CmdMem.lean) | ledger of C52 on the table of blocks: allocated addresses = freed ++ held, without repetition; aliasing by comparing addresses |
| C66 module name and version | `arg_set_module_*`, `module_name`, `module_version` on the heap, with the `arg_dstr` object that builds the version (Model/ModMem.lean) | invariant: owned blocks = name, tag and version, contents = value given last; the `arg_dstr` invariant of C22 relative to a changing base |
| C67 getopt functions | `getopt`, `getopt_long`, `getopt_long_only` called in a loop, any option string and long options (Model/Getopt.lean) | one call reads one result: layout of the vector (finished, skipped operands, options since, rest) as the invariant, against a left-to-right reading (Spec/Getopt.lean); a state that repeats for the loop that never ends |
| C68 pointers | the getopt functions, `arg_parse` and the scan functions that keep pointers once more, with each `char*` as (string, offset), each character read checked against the bounds of its string (Model/GetoptPtr.lean, Model/ParsePtr.lean) | simulation: the state with pointers, seen as text, does what the model with strings does; invariant: `place` is empty or behind the start of `nargv[optind]`, every pointer kept is within a string of the caller's vector |
| C69 `ARG_LONG_ONLY` | `arg_parse` of a build with that macro: the same text with `getopt_long_only` in place of `getopt_long` (Model/ParseOnly.lean) | refinement to a left-to-right reading that tries long names first (Spec/Only.lean), with the layout invariant of C02; agreement with the other build by comparing the two readings |
| C70 spellings of doubles | `arg_dbl` with a `strtod` required to meet the C standard's description (Spec/Double.lean: longest initial part that is white space and a subject sequence); a function that meets it (Model/Strtod.lean, not code of /repo) | the requirement determines `strtod` on complete spellings; uniqueness by reading the spelling with the function that meets the requirement |
| C71 running out of memory | `panic`, `xmalloc`/`xcalloc`/`xrealloc`; `arg_parse` with its memory (Model/ParseMem) once more, with a supply that decides each allocation and an outcome that shows table, getopt variables and heap in the panic function (Model/ParseOom) | simulation with the model that always has memory, carrying an invariant to every allocation; recovery by the relation of C12 |
| C72 sample date | `arg_date_errorfn` with the call of `arg_strptime` that should set the date (Model/Objects: `sampleTm`); `strftime` of the C locale as a specification (Spec/Sample) | induction over the format: what a conversion prints for the zero date is what it reads back, except for the day of the month |
| C73 whole programs | constructors, `arg_parse`, printing and freeing on one memory, as steps of a program with any number of tables (Model/Life) | invariant over the history: the allocated blocks are those of the objects of unfreed tables, all different; C50, C63 and C64 give the steps |
| C74 writing a command line | no new model; Spec/Express.lean is a writer (`write`) | the written arguments are in the grammar of C57, whatever the values; readings of the grammar can be written |
| C75 the walk of `arg_rex` | `trex_matchnode` with its `next` argument, on patterns given as syntax trees; Spec/RegexRun.lean gives the walk by recursion on the tree, the element that follows being a function from places to outcomes | the matcher agrees with the walk up to a lack of fuel (induction on the tree; what follows is an induction hypothesis of its own: `WalkNext`), and there is no lack of fuel; equivalence of patterns by recursion on the tree |
| C76 every pattern | `trex_compile` and everything below it on arbitrary C strings | inversion along the recursive-descent compiler: whatever it accepts is written by a well-formed tree (Proofs/RegexTrees.lean); the compiler's nodes are counted, so the ranges that compile are known exactly (`Re.Compiles`) |
| C77 running out of memory while building text | arg_dstr.c once more with allocations that may fail and a panic function that jumps back into the program (Model/DstrOom); the program carries on with the object (`attemptAll`).  The printing functions are shown to be fixed sequences of calls on an object (`ConsistsOf`), which break off where one of them runs out of memory | each function simulates the one without failures up to its first failing allocation (`osim_…`), where the object has its old contents; `DInv.attempt` is the invariant of C25 for one call, `DInv.attemptAll` for histories, `untilShort_of` for printing; `C77_dstr`, `C77_safe_calls`, `C77_syntax` and so on for the printing functions |
| C78 running out of memory in arg_cmd.c | `arg_cmd_register`, `arg_hashtable_insert`, `arg_hashtable_expand`, `arg_set_module_name`, `arg_set_module_version` once more with allocations that may fail (Model/CmdOom); the program's panic function jumps back into the program, which carries on | the ledger of C65 with a list of lost blocks; the invariant of C66 with lost blocks, and the ways in which it breaks when a setting is made for the second time |
| C79 several dynamic strings | any number of arg_dstr objects in one heap (Spec/Several: `Shelf`), each call runs the model of arg_dstr.c (Model/Dstr) on one of them; the string of one object can be appended to another or copied | an invariant of all objects (Proofs/Several, `SInv`): each object owns its blocks, no block is owned twice, the value of an object is never in a block of another; each call is proved on the object alone, with the blocks of all others as memory that must not change |
| C80 changing the commands during a walk | a program (Spec/Iterate: `stroll`) that runs a history of registrations, creates an iterator and then steps and changes the registry in any order, with the models of arg_cmd.c and arg_hashtable.c | an invariant of registry and iterator (Proofs/Iterate, `StrollInv`): the position of the iterator in the chain of its bucket and what follows it; a change not about that entry and without growth keeps the position and adds to what follows only in later buckets; entries have fresh addresses, so the entries seen are distinct and bounded in number; by induction on the moves.  Growth and changes of the current entry: counterexamples |
| C81 surviving lack of memory | the programs of C73 with `arg_parse` of C71, the printing functions of C77 and the constructors of Model/LifeOom, each call with its own supply of memory (Spec/LifeOom: `Happens`, `Survives`); the arrays whose construction was broken off are part of the state.  The `arg_dstr` object itself is not counted as a block | the invariant of C73 with a list of further blocks (`WorldOK … X`): those of the broken-off arrays and at most six for each call that has panicked; each call is related to the one with plenty of memory (`OSim`), by induction on the history |
| C82 callbacks | `arg_parse` again, function by function, with callbacks that are arbitrary functions on a common memory and on getopt's variables (Model/Shared); the specification lists the calls (Spec/Shared: `CallsFor`, `Performs`).  Not modelled: callbacks that change the headers of the table, the `arg_end` or the strings of the command line, and that jump out of the call | what getopt reports depends on the declarations only (Proofs/Decode, from the theorems on the reading of a command line); with that, both directions by induction on events, operands and entries (Proofs/Shared); distinct objects are the special case whose memory is the list of objects (Proofs/Own).  `arg_parse` inside a scan function: counterexample by induction on the number of rounds |
| C83 work | the fuel of the loop in `arg_parse_tagged` (Model/Parse) counts calls of `getopt_long`; calls of callbacks are those of Spec/Shared; the size of a command line is `chars` (Spec/Work).  Not modelled: the time inside `getopt_long` or a callback | every event uses up a character of the command line (`tokenize_size`), by induction on the command line; each list of calls is bounded by induction on events, operands and entries (Proofs/Work) |
| C84 whole program | one program with one memory: tables (Model/Life), `arg_dstr` objects (Spec/Several), name and version (Model/ModMem), the registry (Model/Cmd), and the functions that write to an `arg_dstr` object (Model/Stream), in any order (Model/Program).  The client's notes about its own calls (`Ledger`) and what a legal call is are in Spec/Program.  Not modelled here: the blocks of the registry's nodes (C65), `malloc` that fails (C71, C77, C78, C81) | invariant over histories that gives every block to one part: those of `C73`, `C79`, `C66` and `C41`, each with the blocks of the other parts as foreign ones; frame lemmas for each part (`world_frame`, `SInv.rebase`, `ModInv.event`) move the other invariants along (Proofs/Program) |
| C85 arrays of pointers | the array that a client passes, with NULL, dangling and trailing pointers, and the loop conditions of each function (Model/Cells); `arg_parse` reads all entries up to the first terminator in `arg_reset` before anything else, and is the one of Model/Parse from there on.  Simplified: the effects of reset functions before a NULL pointer is met | induction over the front of the array (`Spec.TableAt`); inversions for the limits |
| C86 integer variables | getopt and `arg_parse` with C's `int` variables: -1 for none, flags that are true if not 0, additions that overflow at 32 bits, indices that may be negative, `dash_prefix`, `*idx` (Model/GetoptInt, Model/ParseInt) | forward simulation of the models with unbounded numbers (`SameInts`), with an invariant of the positions (`InOrder`) that every call restores; induction over the loops |
| C87 threads | several threads with their own tables that call `arg_parse` and functions that read the table; the variables of getopt exist once.  A step is the beginning of `arg_parse`, one round of the loop of `arg_parse_tagged`, the rest of `arg_parse`, or one call of a reading function (Model/Threads).  Coarser than real threads: without the mutex this only makes the negative results stronger, with it no other thread is in `arg_parse` | invariant over all schedules: what a call still has to do is what is left of an uninterrupted call (`leftOver`), and calls do not depend on getopt's variables (C02) |
| C88 work of `arg_rex` | the matcher again with a counter of the calls of `trex_matchnode` (Model/RexWork); `tries` multiplies how often each repetition can be tried (Spec/RexWork).  Not counted: compiling the pattern and the items of a class, both bounded by the length of the pattern per call | the counter changes no outcome (induction on the recursion depth); induction on the syntax tree with the invariant calls + K ≤ tries · (size + K), where K bounds the work of looking at what follows; the two lower bounds by induction on the nesting, the polynomial one through Pascal's rule (Proofs/RexWork) |
| C89 any comparison function | `arg_mgsort` once more with a comparison function that works on the state of the program and need not return, a temporary block that may be refused, and a log of comparisons, requests and releases (Model/SortWork) | induction on the remaining elements of a merge, then on the depth; the recurrence of the cost by the rules for ⌈log₂⌉ (Proofs/SortWork) |
| C90 cost of a dynamic string | the heap of Model/Dstr gives memory and number of allocations; Model/DstrWork adds to the appending functions a counter of the bytes that `strlen`, `strcpy`, `memset` and `memcpy` look at or write | the size of the append buffer as a further invariant along any history; growth doubles it; per call bounds summed by induction on the characters (Proofs/DstrWork) |
| C91 depth of the recursion of `arg_rex` | Model/RexDepth: the compiler and the matcher of Model/Rex on a stack for `d` nested calls of `trex_list`, `trex_element`, `trex_matchnode`; one more is the outcome `.fuel` | every call inside a call concerns a part of the node array that comes later in the pattern, so the depth is bounded by the number of nodes (Proofs/RexMatch, an invariant that counts the nodes still ahead); compiling by induction on the tree of the pattern (Proofs/RegexCompile); more room changes nothing (`Agrees`); nested parentheses for the lower bounds (Proofs/RexDepth) |
| C92 following the usage line | no new model: links Model/Print with Model/Parse. Spec/Usage: a *plan* gives each entry the values its user writes; `followed` is the command line in the form shown by the line (`mentionArgs`), `Obeys` what the line asks for, `Honest` tables for which the line is right, `Alternative` the listed spellings | C45 exact text rewritten with `mentionArgs` (C92_printed, C92_literal); the command line of a plan is a `Line` (induction over the plan), hence accepted by C57 (C92_follow); C58 for the alternatives; the three exceptions from `tokenize` and the soundness half of C57 |
| C93 an error is not repaired by what follows | no new model. Spec/Persist: `waiting` says that the last argument is an option whose value is still to come | the readings of a command line and of its continuation agree up to the end of the shorter one (induction over the arguments); later options only touch entries with names, so the untagged entries meet the operands in the same state (`ApartNamed`); operands left over stay left over; the records are then compared through C16 |
| C94 what the registry costs | `Model/HashWork.lean`: the hash table and registry functions once more with counters (entries moved, entries looked at, calls of `eqfn`); `loadLimit` is `ceil(size * (float)0.65)` in exact arithmetic, and `C94_limits` shows that the rounding of the `double` product cannot change it for the sizes that occur. The time for allocating and clearing the bucket array is not counted. | Leaving the counters out gives the model's functions in every state (`C94_same`); invariant over histories: number of the table, peak, and total moved determine each other (`C94_moved`, `C94_steady`), numbers for the library (`C94_library`); bucket = registered names with this slot, by a permutation (`C94_lookup`, `C94_unregister`, `C94_register`); names made of the blocks `az` / `bY` all collide (`C94_worst`) |
| C95 bytes above 127 and `<ctype.h>` | `Model/Ctype.lean`: the scan functions of arg_int, arg_date and arg_rex and `arg_print_formatted_ds` once more, with every call of a function of `<ctype.h>` on a plain `char` checked (`ct`): undefined for a negative value other than EOF. Simplified: a call that C evaluates for its value only once is made once per reading (`matchcclassCt`, `wordBoundaryCt`), which is the same set of arguments. The comparison of month and day names uses `unsigned char` and needs no check. | Step by step: the checked function agrees with the other one, or is undefined and some text is not ASCII (`Guard`); for patterns with an invariant on the compiled nodes (`Tame`: types, bounds of ranges). `C95_int_undefined` is an equivalence, from the complete description of the integer scanner; the `_undefined` theorems run the functions up to the byte |
| C96 Other bounds | Two tables whose entries were made by the same constructors from the same arguments apart from the bounds (`Rebound`), in any states, with presets that agree as far as both have room (`Begins`). | Simulation: the scan functions of both give the same answers while the first accepts (`Mimic`), so that resets, deliveries and operands run in step (`Tracks`); only the final checks can differ. For upper bounds the converse simulation, from the laxer table to the stricter one while the counts fit (`Narrow`, `Trims`); counts never go down, so it is enough that the final ones fit. Counterexample for an entry for operands that is not the last. |
| C97 Errors elsewhere | `meaning` of the events and operands (C02), read off for one entry: `Retains lc h args kept` (Spec/Apart.lean) says which of the arguments given to an entry it keeps, errors or not. `unnamed` is the list of the entries without option names. | Induction over the events: the parent of a tagged entry is the fold of its scan function over `delivered evs i`, whatever the answers; the operands pass over tagged entries. `C97_local` (two tables, two command lines), `C97_operands`, `C97_kept` (values, errors or not), `C97_switch` and `C97_help` (counts of an `arg_lit`). |
| C98 Commands that use the registry | A command's function is a tree of calls (`Script`, Model/Dispatch.lean); `runScript` runs it on the hash-table model, `callDepth` bounds the nesting (the stack). The result string is its text (the `arg_dstr` object itself is C36-C38, C79); `arg_cmd_info` is taken by value (pointers into the registry are C65). | Big-step description over the history of registrations (`CarriesOut`, `Misuses`, Spec/Dispatch.lean); `C98_ends` by induction on it, `C98_only` and `C98_safe` by induction on the depth and the tree; determinism by induction. |
| C99 Exchanges in `argv` | `arg_parse` from `permute_args` upwards once more, with a counter of the exchanges of arg_getopt_long.c:217-221 (Model/Exchanges.lean); `C99_same`: the other results are those of `argParse`. | Invariant over the calls of `getopt_long`: twice the exchanges so far are at most `(k-1)k + 2(b-1)`, `k` the operands skipped and `b` the position of the first of them (`Moved`, Proofs/Exchanges.lean), by induction over `goto start` and the loop of `arg_parse_tagged`. `C99_worst` follows the run of `x -o x -o …` by induction on the pairs left (`Alt`). `C99_zero`: the loop is followed with and without POSIXLY_CORRECT side by side until the first operand (`taggedLoopX_two`); from there the position of the first operand grows exactly when an exchange is made (`OpenFrom`, Proofs/ExchangesNone.lean). `C99_exact`: induction over the command line as in C02, with the counter (`loop_exact`, Proofs/ExchangesExact.lean), against the recursive count `exchanges` (Spec/Exchanges.lean). Only exchanges are counted, not comparisons of option names. |

The counterexamples found on the way are listed under "Findings".

## Trusted base

* **Kernel.** Lean 4.33.0's kernel accepts every theorem; Mathlib is used for lists, permutations, `omega`,
  `decide` and friends, all of which produce kernel-checked terms.  No `native_decide`, `bv_decide`, `sorry`, added
  axioms, `implemented_by` or `unsafe`.
* **Axioms.** At most `propext`, `Classical.choice` and `Quot.sound`.  `AXIOMS.md` lists them for every property
  theorem (output of `#print axioms`).
* **Correspondence of model and code.** By reading.  Every definition in `Model/*` cites the lines it models and
  says where it simplifies; the simplifications that matter are collected below.
* **C library.** `strtod`, `strftime` and the effect of user-supplied `printf` formats are parameters of the
  theorems.  `strtol`, `isspace`, `isalpha` and the like, `toupper`, `strchr`, `strlen`, `memcpy`, `vsnprintf`,
  `fputs` are modelled as C99 specifies them in the C locale; that a particular libc conforms is trusted.
  C70 requires of `strtod` what the C standard says about it (Spec/Double.lean); Model/Strtod.lean is a function that
  meets the requirement, to show that it can be met, and models no code of /repo.

### What is modelled

| file | modelled | not modelled |
|------|----------|--------------|
| argtable3.c | `arg_register_error`, `find_shortoption`, `alloc_longoptions`, `alloc_shortoptions`, `arg_endindex` (as the position of the terminator), `arg_parse_tagged`, `arg_parse_untagged`, `arg_parse_check`, `arg_reset`, `arg_parse` (Model/Table, Model/Parse, Model/ParseOnly for `ARG_LONG_ONLY`; with their memory in Model/ParseMem, with `int` variables in Model/ParseInt, with any array of pointers as the table in Model/Cells); `arg_cat*`, all `arg_print_*` with their `FILE *` variants (Model/Print, Model/Stream); `arg_nullcheck`, `arg_free`, `arg_freetable` (Model/Free) | `dump_longoptions`, `arg_lit`-style tracing, `DllMain` |
| arg_getopt_long.c | `gcd`, `permute_args`, `parse_long_options`, `getopt_internal`, `getopt`, `getopt_long`, `getopt_long_only` (Model/Permute, Model/Getopt; with `int` variables, `dash_prefix` and the argument `idx` in Model/GetoptInt); the texts of the messages given to `warnx` | the program's name that the C library's `warnx` puts before them; the Windows version of `warnx`; several `flag` variables (one cell is modelled) |
| arg_lit.c, arg_int.c, arg_dbl.c, arg_str.c, arg_file.c, arg_date.c, arg_rem.c, arg_end.c | everything: scan, check, reset, error functions and constructors (Model/Values, Model/Date, Model/Objects, Model/Makers), sizes of the blocks (Model/Layout) | `ARG_TRACE` |
| arg_rex.c | scan, error, constructors, the TRex compiler and matcher (Model/Rex; with captures, memory and `trex_free` in Model/RexMem) | `trex_searchrange`, `trex_search`, `trex_getsubexpcount`, `trex_getsubexp` (never called) |
| arg_dstr.c | everything, on a heap of blocks with addresses (Model/Dstr) | |
| arg_hashtable.c | everything, on bucket arrays and chains of cells (Model/Hash) | memory addresses (cells are identified by index) |
| arg_cmd.c | registry, dispatch, info, count, iteration, module name and version, messages (Model/Cmd, Model/Help, Model/Stream); registry with blocks and aliasing arguments, iterator functions (Model/CmdMem); blocks of module name and version (Model/ModMem); both with failing allocations (Model/CmdOom) | NULL arguments |
| arg_utils.c | `arg_mgsort`, `merge` (Model/Sort, Model/SortWork), `xfree`; `panic`, `xmalloc`, `xcalloc`, `xrealloc` (Model/ParseOom) | `arg_set_panic` (an assignment), `dbg_printf` |

### Simplifications that matter

* `malloc` succeeds, except in C71, C77, C78 and C81: `xmalloc` and friends call the panic function, which by default exits, so no code
  after a failed allocation runs.  C71 has `arg_parse` with allocations that fail, C77 arg_dstr and the printing functions, C78 registering commands and setting the module's name and version, C81 whole programs whose panic function does not return but that go on elsewhere.  A user panic function that
  returns is outside the model.
* Argument counts, indices and `count` members are unbounded; the theorems do not cover more than 2^31 - 1
  arguments.  C86 has `int` variables for the counts and indices of getopt and `arg_parse` and shows that the results are the same
  below that; not for `count` members, which are at most `maxcount` (C14).  The size computations of the constructors are modelled separately with `size_t` arithmetic
  (Model/Layout, C62), and those of arg_dstr.c with `int` overflow as undefined behaviour.
* The entries of a table are distinct objects (the same pointer is not listed twice) and their functions are those
  of the constructors or arbitrary pure functions of their object.  C82 does without this: there callbacks share memory,
  and C82_distinct shows that the simpler model is the special case of distinct objects.
* In most models objects are values: strings stored in an entry are the argument's characters rather than pointers into
  `argv`.  Model/GetoptPtr and Model/ParsePtr have the pointers, and C68 proves that the model with values gives the same
  results.  The option string and the names of the options are not modelled as pointers into memory that could alias the
  arguments, and functions of user-defined entries are assumed to read their argument as a string.  That `argv` itself
  is left alone is C13.
* Negative `maxcount` is undefined behaviour in `Model/Objects` (it makes an undersized block: C62_negative).
* A negative `char` passed to `isspace`, `toupper` and the like (undefined in C for values other than EOF) is treated
  as in glibc's C locale: not a member of any class, unchanged.  C95 has these calls checked and proves what changes.
* Function pointers are applied to the object they belong to; anything else is a fault ("type confusion").

## Findings

Where a property turned out false, the theorem named here is the counterexample; the property is kept in full
in `properties.jsonl` with a `_partial` theorem or an exact characterisation next to it.

| finding | theorem |
|---------|---------|
| `arg_parse` never returns for a cluster that ends in `-`, e.g. `prog -a-` | `C01_counterexample`, `C01_stuck`; for other users of `getopt_long` `C67_hangs` |
| with `ARG_LONG_ONLY`, the end of a cluster of short options is taken for a long option if it can be: `-vout x` is `-v --out x`, not `-v -o ut`; two names of one entry make their common prefix ambiguous (`-ou` with `out,output`) | `C69_swallowed`, example after `C69_complete` |
| `arg_dbl` accepts the empty text as 0 (as an operand or as a separate argument), `nan`, `inf`, hexadecimal floats and numbers out of range; it rejects trailing white space, which `arg_int` allows | `C70_scan` and the examples after it |
| `xmalloc` passes a request for no bytes on (`xcalloc` and `xrealloc` do not): where `malloc(0)` is NULL, an `arg_rex` with the empty pattern is reported as lack of memory | `C71_zero_request`, `C71_sizes` |
| an option letter with byte 255 looks like the end of the options to a caller of getopt | `C67_byte_255` |
| parsing depends on history in two corners: `%p` without an hour, an optional value left out | `C12_same_call_differs`, `C12_stale_value` |
| `longopts` that is empty or starts with a comma makes `alloc_longoptions` leave its buffers | `C15_empty`, `C15_leading_comma` |
| `arg_end(0)` makes `arg_register_error` write at index -1 | `C09_end_zero` |
| `arg_int` accepts `0x-5`, `0x 12`, `0x0x5` | `C22_sign_after_prefix` |
| `-0x-8000000000000000` negates `LONG_MIN` | `C23_negates_long_min` |
| `%C%y` in a date format gives a year 1900 too large | `C30_century_off` |
| regular expressions: elements that match NUL read past the argument; an invalid pattern is a NULL dereference; the empty pattern overflows; no backtracking; the word boundary looks at the wrong two characters; wrong class range check; a `-` before the `]` of a class makes a range that ends in `]` (`[+-]` crashes); `a*?` is `a*` followed by a question mark, `a**`, `()` and `a\|` crash; repetition counts over 65535 or with overflow | `C34_past_end`, `C35_invalid`, `C35_empty`, `C53_backtracking`, `C53_alternatives`, `C53_boundary`, `C53_late_range`, `C53_not_compiled`, C76 (examples), `C35_count_*` |
| `arg_dstr`: own string passed back, or use after the public `arg_dstr_free`, touches freed memory | `C37_own_static`, `C37_own_short`, `C37_own_cat`, `C37_after_free` |
| growing the hash table reverses duplicates | `C39_duplicates` |
| after `arg_cmd_uninit` the registry pointer dangles; messages before `arg_cmd_init` follow NULL | `C41_after_uninit`, `C55_no_registry`, `C55_after_uninit` |
| registering a command again with the name or description taken from `arg_cmd_info` (e.g. to change only its procedure) reads freed memory; so does advancing an iterator after unregistering its command | `C65_keep_description`, `C65_register`, `C65_iterator` |
| the sample in the message about a malformed date is not 1999-12-31 23:59:59 but a date with all members 0, because `arg_strptime` does not know `%F`; `arg_date` rejects its own sample whenever the format has a day of the month (`01/00/00` for the default format) | `C72_date`, `C72_rejected`, `C72_default` |
| an `arg_date` format whose expansion has 200 bytes or more makes the message about a malformed date print an indeterminate buffer (the result of `strftime` is not looked at) | `C48_long_sample` |
| unregistering (or registering again) the command at which an iterator stands leaves the iterator with freed memory, and there is no other way to remove commands during a walk | `C80_dangling` |
| registering a command while an iterator is in use can make the hash table grow; the iterator then shows some commands several times and others not at all | `C80_growth` |
| `arg_mgsort` is not stable: it reverses runs of equal elements | `C43_not_stable`, `C43_reverses` |
| `arg_mgsort` overflows an `int` when the sum of the two bounds does not fit one; the exact bounds for a whole array | `C42_overflow`, `C42_exact` |
| `arg_print_formatted` with an empty column never returns | `C46_hangs` |
| an unknown option with a byte 1..5 is reported with a wrong message | `C48_low_byte` |
| `arg_free` stops at the first NULL and leaks the rest | `C50_free_leaks` |
| a failed `arg_set_module_name` or `arg_set_module_version` leaves freed strings in use if the setting had been made before (and, for the version, if an earlier call had failed): a program whose panic function jumps back must not show the name or version, or set it again | `C78_name_again`, `C78_version_again` |
| a command whose second registration runs out of memory is not registered any more | `C78_failed` |
| two entries sharing an option name: the first in the table wins, so the order of entries matters | `C60_shared_name` |
| a new entry can make an abbreviation in use ambiguous | `C61_abbreviation` |
| `arg_end` with odd `maxcount` misaligns its pointer arrays on LP64; negative counts give undersized blocks | `C62_end_odd`, `C62_negative` |
| `arg_parse` cannot be called in a scan function: the two calls share getopt's variables, and the outer one may read the same option for ever (argtable3.c:253-257, arg_getopt_long.c:411-412) | `C82_nested_scan` |
| With a NULL pointer in a table (a constructor that failed), `arg_print_syntax` and `arg_print_syntaxv` stop silently there, while `arg_print_glossary`, `arg_print_glossary_gnu` and `arg_parse` read through the pointer | `C85_hole`, `C85_syntaxv` |
| With `argc == INT_MAX` the size `argc + 1` of the copy of argv overflows (argtable3.c:454): `arg_parse` is undefined, while the bundled getopt itself is not | `C86_limit` |
| `arg_parse` is not reentrant: two threads that call it at the same time, even on different tables, can exchange options silently, or permute arguments beyond the end of a vector (variables of arg_getopt_long.c:69-73, 102-112) | `C87_race`, `C87_race_memory` |
| a short pattern can make a program hang: a repetition of something that may be empty is tried 65536 times at the same place, and nested repetitions multiply (arg_rex.c:766-797) | `C88_blowup` |
| a pattern of k stars that are tried against what follows them needs polynomially many calls of degree k: two stars and an argument of 60000 characters take more than 10^9 (arg_rex.c:751-797) | `C88_degree` |
| a comparison function that leaves `arg_mgsort` by `longjmp` leaks the temporary block (arg_utils.c:124-162) | `C89_leak` |
| every `arg_dstr_cat` and `arg_dstr_catc` runs `strlen` over the whole text (and `append_used`, which should avoid it, is never advanced), so making a text piece by piece takes quadratic time (arg_dstr.c:175-183, 280-287) | `C90_quadratic` |
| `trex_element` calls itself for the next element, so even a pattern without parentheses is compiled with as many nested calls as it has elements; `k` opening parentheses take `2k + 2` (arg_rex.c:558-680).  The argument does not matter. | `C91_exact`, `C91_unclosed`, `C91_enough` |
| The usage line misleads in three cases: `arg_litn("v", NULL, 2, 2, ..)` is shown as `-v` although `-v` is rejected; an option letter with an optional value is shown as `-c [VALUE]` although in `-c value` the text `value` is an operand; `--name=[VALUE]` is shown although `--name=` is rejected (argtable3.c:522-570, 664-760). | `C92_twice`, `C92_detached`, `C92_emptied` |
| A lookup of a command may have to compare with every registered command: any number of names of letters can be made that share all 32 bits of the hash value | `C94_worst` |
| Where `char` is signed, an argument like `é` or `7é` for an `arg_int`, a glossary text that begins with a letter outside ASCII, and date formats and patterns containing one are undefined behaviour: the bytes are passed to `isspace`, `toupper` and the like as negative numbers (arg_int.c:64-132, arg_date.c:264, arg_rex.c:422-859, argtable3.c:886-904).  glibc tolerates it. | `C95_int_undefined`, `C95_date_undefined`, `C95_rex_undefined`, `C95_format_undefined` |
| Raising the `maxcount` of an entry for operands can make an accepted command line an error: the entry takes operands that the next entry needs. | `C96_operands` |
| The time for reading a command line is quadratic in its length: `k` operands and `k` flags in turn make `k(k+1)/2 + k` exchanges in the copy of `argv`. | `C99_worst` |

## Testing the theorems

`seeded/LOG.jsonl` has one line for each wrong program tried: the edited definition, the edit, the claim it
breaks, the theorems that failed, and what was tightened where none did.
