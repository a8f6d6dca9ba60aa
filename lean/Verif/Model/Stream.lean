import Verif.Model.Dstr
import Verif.Model.Help
/-!
# The printing functions at work

Model/Print.lean, Model/Objects.lean and Model/Help.lean say which text a printing function produces.  Here the
same functions are modelled as what they do: they call the functions of arg_dstr.c (Model/Dstr.lean) one after
the other, on an object in memory.  The functions that print to a `FILE *` create such an object, let the other
function fill it, write its string to the stream and destroy it.

A string that is passed to `arg_dstr_cat` (a literal, the array `syntax[200]` of the caller, a string of the table)
is in a block of its own while the call lasts.  The stream is the text written to it so far; `fputs` cannot fail.
-/

namespace Argtable

variable {σ P C : Type}

/-- `arg_dstr_cat(ds, s)`. -/
def dsCat (s : CStr) (st : DState) : M DState := do
  let (a, st) := st.malloc (bytesOf (s ++ ['\x00']))
  let st ← dstrCat st ⟨.blk a, 0⟩
  st.free ⟨.blk a, 0⟩

/-- `arg_dstr_catf(ds, format, …)`: the length of the format and the formatted text. -/
def dsCatf (fmtlen : Nat) (text : CStr) (st : DState) : M DState := dstrCatf st (some fmtlen) text

/-- `arg_print_option_ds`, argtable3.c:640-649; `suffix` is not NULL. -/
def optionDs (shortopts longopts datatype : Option CStr) (suffix : CStr) (st : DState) : M DState := do
  let b ← catOptionv (syntaxBuf []) shortopts longopts datatype false (cs "|")
  let st ← dsCat (bufStr b.buf) st
  dsCat suffix st

/-- A loop of `arg_print_gnuswitch_ds`, argtable3.c:671-708, over the entries selected by `p`: the format is
`pre` followed by `%c`, and just `%c` after the first entry printed.  The result says whether one was printed. -/
def switchesDs (p : Hdr σ → Bool) : List (Hdr σ) → (pre : CStr) → (any : Bool) → DState → M (DState × Bool)
  | [], _, any, st => .ok (st, any)
  | h :: t, pre, any, st =>
    if p h then do
      let st ← dsCatf (pre.length + 2) (pre ++ shortHead h) st
      switchesDs p t [] true st
    else switchesDs p t pre any st

/-- `arg_print_gnuswitch_ds`, argtable3.c:664-711. -/
def gnuswitchDs (es : List (Hdr σ)) (st : DState) : M DState := do
  let (st, any1) ← switchesDs (fun h => !(h.mincount < 1) && isSwitch h) es (cs " -") false st
  let (st, any2) ← switchesDs (fun h => !(h.mincount > 0) && isSwitch h) es
    (if any1 then cs "[" else cs " [-") false st
  dsCatf 2 (if any2 then cs "]" else []) st

/-- The loop over the mandatory instances, argtable3.c:736-739, 795-798. -/
def mandatoryDs (syn : CStr) : Nat → DState → M DState
  | 0, st => .ok st
  | n + 1, st => do
    let st ← dsCat (cs " ") st
    let st ← dsCat syn st
    mandatoryDs syn n st

/-- The optional instances, argtable3.c:742-763, 801-821. -/
def optionalDs (syn : CStr) (extra : Int) (st : DState) : M DState :=
  if extra = 0 then .ok st
  else if extra = 1 then do
    let st ← dsCat (cs " [") st
    let st ← dsCat syn st
    dsCat (cs "]") st
  else if extra = 2 then do
    let st ← dsCat (cs " [") st
    let st ← dsCat syn st
    let st ← dsCat (cs "]") st
    let st ← dsCat (cs " [") st
    let st ← dsCat syn st
    dsCat (cs "]") st
  else do
    let st ← dsCat (cs " [") st
    let st ← dsCat syn st
    dsCat (cs "]...") st

/-- The instances of an option, argtable3.c:735-763 and 794-821. -/
def instancesDs (syn : CStr) (mincount maxcount : Int) (st : DState) : M DState := do
  let st ← mandatoryDs syn mincount.toNat st
  optionalDs syn (maxcount - mincount) st

/-- The loop of `arg_print_syntax_ds`, argtable3.c:721-765. -/
def syntaxLoopDs : List (Hdr σ) → DState → M DState
  | [], st => .ok st
  | h :: t, st =>
    if isSwitch h then syntaxLoopDs t st
    else do
      let b ← catOption (syntaxBuf []) h.shortopts h.longopts h.datatype h.hasOptValue
      let st ← if (bufStr b.buf).length > 0 then instancesDs (bufStr b.buf) h.mincount h.maxcount st else .ok st
      syntaxLoopDs t st

/-- The suffix, argtable3.c:767-769, 824-826. -/
def suffixDs (suffix : Option CStr) (st : DState) : M DState :=
  match suffix with
  | some s => dsCat s st
  | none => .ok st

/-- `arg_print_syntax_ds`, argtable3.c:713-770. -/
def syntaxDs (es : List (Hdr σ)) (suffix : Option CStr) (st : DState) : M DState := do
  let st ← gnuswitchDs es st
  let st ← syntaxLoopDs es st
  suffixDs suffix st

/-- The loop of `arg_print_syntaxv_ds`, argtable3.c:784-822. -/
def syntaxvLoopDs : List (Hdr σ) → DState → M DState
  | [], st => .ok st
  | h :: t, st => do
    let b ← catOptionv (syntaxBuf []) h.shortopts h.longopts h.datatype h.hasOptValue (cs "|")
    let st ← instancesDs (bufStr b.buf) h.mincount h.maxcount st
    syntaxvLoopDs t st

/-- `arg_print_syntaxv_ds`, argtable3.c:779-827. -/
def syntaxvDs (es : List (Hdr σ)) (suffix : Option CStr) (st : DState) : M DState := do
  let st ← syntaxvLoopDs es st
  suffixDs suffix st

/-- `arg_print_glossary_ds`, argtable3.c:836-852; the format has `fmtlen` characters and the effect `fmt2`. -/
def glossaryDs (fmtlen : Nat) (fmt2 : CStr → CStr → CStr) : List (Hdr σ) → DState → M DState
  | [], st => .ok st
  | h :: t, st =>
    match h.glossary with
    | none => glossaryDs fmtlen fmt2 t st
    | some g => do
      let b ← catOptionv (syntaxBuf []) h.shortopts h.longopts h.datatype h.hasOptValue (cs ", ")
      let st ← dsCatf fmtlen (fmt2 (bufStr b.buf) g) st
      glossaryDs fmtlen fmt2 t st

/-- Printing one line, argtable3.c:914-925: the new `line_start`; `k` is `line_end - line_start`. -/
def lineDs (text : CStr) : (k : Nat) → (i : Nat) → DState → M (DState × Nat)
  | 0, i, st => .ok (st, i)
  | k + 1, i, st => do
    let c ← charAt text i
    if c = '\n' then .ok (st, i + 1)
    else do
      let st ← dstrCatc st c
      lineDs text k (i + 1) st

/-- The indentation, argtable3.c:932-934. -/
def indentDs : Nat → DState → M DState
  | 0, st => .ok st
  | n + 1, st => do
    let st ← dsCat (cs " ") st
    indentDs n st

/-- The main loop of `arg_print_formatted_ds`, argtable3.c:882-938. -/
def fmtLoopDs (text : CStr) (lmargin colwidth : Nat) : (fuel : Nat) → (i e : Nat) → DState → M DState
  | 0, _, _, _ => .error .fuel
  | fuel + 1, i, e, st =>
    if e > i then do
      let i ← fmtSkip text (text.length + 1) i
      let e ← fmtEnd text colwidth i e
      let (st, i) ← lineDs text (e - i) i st
      let st ← dsCat (cs "\n") st
      if e < text.length then do
        let st ← indentDs lmargin st
        fmtLoopDs text lmargin colwidth fuel i text.length st
      else fmtLoopDs text lmargin colwidth fuel i e st
    else .ok st

/-- `arg_print_formatted_ds`, argtable3.c:869-939. -/
def formattedDs (fuel : Nat) (lmargin rmargin : Nat) (text : CStr) (st : DState) : M DState :=
  fmtLoopDs text lmargin (wrap32 (rmargin + 4294967296 - lmargin + 1)) fuel 0 text.length st

/-- One entry of `arg_print_glossary_gnu_ds`, argtable3.c:994-1017. -/
def gnuEntryDs (fuel : Nat) (h : Hdr σ) (g : CStr) (st : DState) : M DState := do
  let init := if h.shortopts.isNone ∧ h.longopts.isSome then cs "    " else []
  let b ← catOptionv (syntaxBuf init) h.shortopts h.longopts h.datatype h.hasOptValue (cs ", ")
  let syn := bufStr b.buf
  if syn.length > 25 then do
    let st ← dsCatf 11 (cs "  " ++ padRight 25 syn ++ cs " " ++ cs "\n") st
    let st ← dsCatf 8 (cs "  " ++ padRight 25 [] ++ cs " ") st
    formattedDs fuel 28 79 g st
  else do
    let st ← dsCatf 8 (cs "  " ++ padRight 25 syn ++ cs " ") st
    formattedDs fuel 28 79 g st

/-- The loop of `arg_print_glossary_gnu_ds`, argtable3.c:993-1018. -/
def gnuLoopDs (fuel : Nat) : List (Hdr σ) → DState → M DState
  | [], st => .ok st
  | h :: t, st =>
    match h.glossary with
    | none => gnuLoopDs fuel t st
    | some g => do
      let st ← gnuEntryDs fuel h g st
      gnuLoopDs fuel t st

/-- `arg_print_glossary_gnu_ds`, argtable3.c:989-1021. -/
def glossaryGnuDs (fuel : Nat) (es : List (Hdr σ)) (st : DState) : M DState := do
  let st ← gnuLoopDs fuel es st
  dsCat (cs "\n") st

/-! ## Error messages -/

/-- The part common to most error functions, e.g. arg_str.c:82-98. -/
def stdErrorDs (shortopts longopts datatype : Option CStr) (other : CStr → DState → M DState)
    (error : Int) (argval : Option CStr) (progname : CStr) (st : DState) : M DState := do
  let argval := argval.getD []
  let st ← dsCatf 4 (progname ++ cs ": ") st
  if error = ARG_ERR_MINCOUNT then do
    let st ← dsCat (cs "missing option ") st
    optionDs shortopts longopts datatype (cs "\n") st
  else if error = ARG_ERR_MAXCOUNT then do
    let st ← dsCat (cs "excess option ") st
    optionDs shortopts longopts (some argval) (cs "\n") st
  else other argval st

/-- `arg_lit_errorfn`, arg_lit.c:63-83. -/
def litErrorDs (shortopts longopts datatype : Option CStr) (error : Int) (_argval : Option CStr) (progname : CStr)
    (st : DState) : M DState :=
  if error = ARG_ERR_MINCOUNT then do
    let st ← dsCatf 19 (progname ++ cs ": missing option ") st
    let st ← optionDs shortopts longopts datatype (cs "\n") st
    dsCat (cs "\n") st
  else if error = ARG_ERR_MAXCOUNT then do
    let st ← dsCatf 22 (progname ++ cs ": extraneous option ") st
    optionDs shortopts longopts datatype (cs "\n") st
  else .ok st

/-- `arg_int_errorfn`, arg_int.c:216-247. -/
def intErrorDs (shortopts longopts datatype : Option CStr) (error : Int) : Option CStr → CStr → DState → M DState :=
  stdErrorDs shortopts longopts datatype (fun argval st =>
    if error = ARG_ERR_BADINT then do
      let st ← dsCatf 32 (cs "invalid argument \"" ++ argval ++ cs "\" to option ") st
      optionDs shortopts longopts datatype (cs "\n") st
    else if error = ARG_ERR_OVERFLOW then do
      let st ← dsCat (cs "integer overflow at option ") st
      let st ← optionDs shortopts longopts datatype (cs " ") st
      dsCatf 18 (cs "(" ++ argval ++ cs " is too large)\n") st
    else .ok st) error

/-- `arg_dbl_errorfn`, arg_dbl.c:82-107. -/
def dblErrorDs (shortopts longopts datatype : Option CStr) (error : Int) : Option CStr → CStr → DState → M DState :=
  stdErrorDs shortopts longopts datatype (fun argval st =>
    if error = ARG_ERR_BADDOUBLE then do
      let st ← dsCatf 32 (cs "invalid argument \"" ++ argval ++ cs "\" to option ") st
      optionDs shortopts longopts datatype (cs "\n") st
    else .ok st) error

/-- `arg_str_errorfn`, arg_str.c:77-97. -/
def strErrorDs (shortopts longopts datatype : Option CStr) (error : Int) : Option CStr → CStr → DState → M DState :=
  stdErrorDs shortopts longopts datatype (fun _ st => .ok st) error

/-- `arg_file_errorfn`, arg_file.c:131-154. -/
def fileErrorDs (shortopts longopts datatype : Option CStr) (error : Int) : Option CStr → CStr → DState → M DState :=
  stdErrorDs shortopts longopts datatype (fun argval st =>
    dsCatf 22 (cs "unknown error at \"" ++ argval ++ cs "\"\n") st) error

/-- `arg_date_errorfn`, arg_date.c:80-112; see `dateError` for the sample date. -/
def dateErrorDs (sample : CStr → CStr) (format : CStr) (shortopts longopts datatype : Option CStr)
    (error : Int) : Option CStr → CStr → DState → M DState :=
  stdErrorDs shortopts longopts datatype (fun argval st =>
    if error = ARG_ERR_BADDATE then do
      let st ← dsCatf 30 (cs "illegal timestamp format \"" ++ argval ++ cs "\"\n") st
      if (sample format).length < 200 then
        dsCatf 23 (cs "correct format is \"" ++ sample format ++ cs "\"\n") st
      else .error (.ub "use of an indeterminate buffer")
    else .ok st) error

/-- `arg_rex_errorfn`, arg_rex.c:177-210. -/
def rexErrorDs (shortopts longopts datatype : Option CStr) (error : Int) : Option CStr → CStr → DState → M DState :=
  stdErrorDs shortopts longopts datatype (fun argval st =>
    if error = ARG_ERR_REGNOMATCH then do
      let st ← dsCat (cs "illegal value  ") st
      optionDs shortopts longopts (some argval) (cs "\n") st
    else .ok st) error

/-- `arg_end_errorfn`, arg_end.c:46-76. -/
def endErrorDs (error : Int) (argval : Option CStr) (progname : CStr) (st : DState) : M DState := do
  let argval := argval.getD []
  let st ← dsCatf 4 (progname ++ cs ": ") st
  let st ←
    if error = ARG_ELIMIT then dsCat (cs "too many errors to display") st
    else if error = ARG_EMALLOC then dsCat (cs "insufficient memory") st
    else if error = ARG_ENOMATCH then dsCatf 24 (cs "unexpected argument \"" ++ argval ++ cs "\"") st
    else if error = ARG_EMISSARG then dsCatf 32 (cs "option \"" ++ argval ++ cs "\" requires an argument") st
    else if error = ARG_ELONGOPT then dsCatf 19 (cs "invalid option \"" ++ argval ++ cs "\"") st
    else if error = 0 then dsCatf 20 (cs "invalid option \"-") st
    else dsCatf 20 (cs "invalid option \"-" ++ [intChar error] ++ cs "\"") st
  dsCat (cs "\n") st

/-- An error function at work, `errorfn(parent, ds, error, argval, progname)`.  (argtable3.h:81.) -/
abbrev ErrFn (σ : Type) := σ → Int → Option CStr → CStr → DState → M DState

/-- One call of an error function in `arg_print_errors_ds`, arg_end.c:119-121.  `fns` are the error functions of
the entries (the member `errorfn` of `Hdr` only gives the text). -/
def errorDs (es : List (Hdr σ)) (fns : List (Option (ErrFn σ))) (progname : CStr) (r : ErrRec) (st : DState) :
    M DState :=
  match r.parent with
  | .endt => endErrorDs r.error r.argval progname st
  | .entry i =>
    match es[i]?, fns[i]? with
    | some h, some (some f) => f h.parent r.error r.argval progname st
    | some _, some none => .ok st
    | _, _ => .error (.ub "dangling parent pointer")

/-- The loop of `arg_print_errors_ds`. -/
def errorsLoopDs (es : List (Hdr σ)) (fns : List (Option (ErrFn σ))) (progname : CStr) :
    List ErrRec → DState → M DState
  | [], st => .ok st
  | r :: rs, st => do
    let st ← errorDs es fns progname r st
    errorsLoopDs es fns progname rs st

/-- `arg_print_errors_ds`, arg_end.c:115-123. -/
def errorsDs (t : Table σ) (fns : List (Option (ErrFn σ))) (progname : CStr) (st : DState) : M DState :=
  if t.fin.count ≤ t.fin.slots.length then
    errorsLoopDs t.entries fns progname (t.fin.slots.take t.fin.count) st
  else .error (.ub "arg_print_errors: index out of range")

/-! ## The messages of arg_cmd.c -/

/-- `arg_make_get_help_msg`, arg_cmd.c:235-238. -/
def getHelpDs (m : ModInfo) (st : DState) : M DState := do
  let st ← dsCatf 7 (moduleName m ++ cs " v" ++ moduleVersion m ++ cs "\n") st
  dsCatf 47 (cs "Please type '" ++ moduleName m ++ cs " help' to get more information.\n") st

/-- `arg_make_help_msg`, arg_cmd.c:240-253. -/
def helpDs (limit : Nat → Nat) (m : ModInfo) (reg : Registry P C) (cmdName : CStr) (es : List (Hdr σ)) (st : DState) :
    M DState := do
  let t ← reg.get
  let info ← hashSearch (cmdFns limit) t cmdName
  let st ← match info with
    | some i => dsCatf 7 (cmdName ++ cs ": " ++ i.description ++ cs "\n") st
    | none => .ok st
  let st ← dsCat (cs "Usage:\n") st
  let st ← dsCatf 4 (cs "  " ++ moduleName m) st
  let st ← syntaxvDs es (some (cs "\n \nAvailable options:\n")) st
  let st ← glossaryDs 11 helpGlossary es st
  dsCat (cs "\n") st

/-- `arg_make_syntax_err_msg`, arg_cmd.c:255-261. -/
def syntaxErrDs (m : ModInfo) (t : Table σ) (fns : List (Option (ErrFn σ))) (st : DState) : M DState := do
  let st ← errorsDs t fns (moduleName m) st
  let st ← dsCat (cs "Usage: \n") st
  let st ← dsCatf 4 (cs "  " ++ moduleName m) st
  let st ← syntaxvDs t.entries (some (cs "\n")) st
  dsCat (cs "\n") st

/-! ## Printing to a stream -/

/-- The body of all functions that print to a `FILE *`, e.g. argtable3.c:652-657: `heap` is the memory, `out` what
was written to the stream so far. -/
def toStream (print : DState → M DState) (heap : Heap) (out : CStr) : M (Heap × CStr) := do
  let st := dstrCreate heap
  let st ← print st
  let s ← st.cstr (dstrCstr st)
  let (heap, _) ← dstrDestroy st
  .ok (heap, out ++ s)

/-- `arg_print_option`, argtable3.c:652-657. -/
def printOptionTo (so lo dt : Option CStr) (suffix : CStr) : Heap → CStr → M (Heap × CStr) :=
  toStream (optionDs so lo dt suffix)

/-- `arg_print_syntax`, argtable3.c:772-777. -/
def printSyntaxTo (es : List (Hdr σ)) (suffix : Option CStr) : Heap → CStr → M (Heap × CStr) :=
  toStream (syntaxDs es suffix)

/-- `arg_print_syntaxv`, argtable3.c:829-834. -/
def printSyntaxvTo (es : List (Hdr σ)) (suffix : Option CStr) : Heap → CStr → M (Heap × CStr) :=
  toStream (syntaxvDs es suffix)

/-- `arg_print_glossary`, argtable3.c:854-859. -/
def printGlossaryTo (fmtlen : Nat) (fmt2 : CStr → CStr → CStr) (es : List (Hdr σ)) : Heap → CStr → M (Heap × CStr) :=
  toStream (glossaryDs fmtlen fmt2 es)

/-- `arg_print_formatted`, argtable3.c:973-978. -/
def printFormattedTo (fuel : Nat) (lmargin rmargin : Nat) (text : CStr) : Heap → CStr → M (Heap × CStr) :=
  toStream (formattedDs fuel lmargin rmargin text)

/-- `arg_print_glossary_gnu`, argtable3.c:1023-1028. -/
def printGlossaryGnuTo (fuel : Nat) (es : List (Hdr σ)) : Heap → CStr → M (Heap × CStr) :=
  toStream (glossaryGnuDs fuel es)

/-- `arg_print_errors`, arg_end.c:125-130. -/
def printErrorsTo (t : Table σ) (fns : List (Option (ErrFn σ))) (progname : CStr) : Heap → CStr → M (Heap × CStr) :=
  toStream (errorsDs t fns progname)

end Argtable
