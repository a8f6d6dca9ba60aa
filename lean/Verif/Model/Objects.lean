import Verif.Model.Parse
import Verif.Model.Date
import Verif.Model.Rex
import Verif.Model.Print
/-!
# The public constructors

`Obj δ` is the value part of any `arg_xxx` struct (`δ` is `double`).  A function pointer of a header
is applied to the object the header is part of; applying it to another kind of object would be a type
confusion, a fault.  Simplification: the functions capture the header fields they use (`maxcount`,
`mincount`, option strings, data type) at construction; argtable3 never changes them later, and
`hdr.flag`, which users do change (`ARG_HASOPTVALUE`), is not used by them.
-/

namespace Argtable

/-- The C library functions used on values.  (called in arg_dbl.c:62, arg_date.c:251-548.) -/
structure Libc (δ : Type) where
  /-- `strtod(s, &end)`: value and rest -/
  strtod : CStr → δ × CStr
  /-- what `strftime` makes of a format and a date, in a buffer of sufficient size -/
  strftime : CStr → Tm → CStr

/-- The date of the sample in the message about a malformed date, arg_date.c:105-106: a cleared `struct tm`
given to `arg_strptime("1999-12-31 23:59:59", "%F %H:%M:%S", &tm)`, whose result is not looked at.
Simplification: when `arg_strptime` fails, the members that it has set by then are kept; here it fails at the
first conversion, and none has been set. -/
def sampleTm : Tm :=
  match strptime (cs "1999-12-31 23:59:59") (cs "%F %H:%M:%S") {} with
  | some (_, tm) => tm
  | none => {}

/-- The sample in the message about a malformed date, arg_date.c:107. -/
def Libc.sample {δ : Type} (lc : Libc δ) (format : CStr) : CStr := lc.strftime format sampleTm

/-- The value part of an `arg_xxx` struct. -/
inductive Obj (δ : Type) where
  | lit (count : Nat)
  | int (o : IntObj)
  | dbl (o : DblObj δ)
  | str (o : StrObj)
  | file (o : FileObj)
  | date (o : DateObj)
  | rex (o : StrObj)
  | rem

/-- The `count` member.  (argtable3.h:131-191.) -/
def Obj.count {δ : Type} : Obj δ → Nat
  | .lit c => c
  | .int o => o.count
  | .dbl o => o.count
  | .str o => o.count
  | .file o => o.count
  | .date o => o.count
  | .rex o => o.count
  | .rem => 0

/-- Type confusion.
(a callback gets the object it was made for: `result->hdr.parent = result`, e.g. arg_int.c:275.) -/
def confused {α : Type} : M α := .error (.ub "type confusion")

variable {δ : Type}

/-! ## Error functions -/

/-- The part common to most error functions, e.g. arg_str.c:82-98: prefix `"progname: "`, "missing
option" for MINCOUNT, "excess option" for MAXCOUNT; `other` is the text for other codes. -/
def stdError (shortopts longopts datatype : Option CStr) (other : CStr → M CStr)
    (error : Int) (argval : Option CStr) (progname : CStr) : M CStr := do
  let argval := argval.getD []
  let body ←
    if error = ARG_ERR_MINCOUNT then do
      let o ← printOption shortopts longopts datatype (cs "\n")
      .ok (cs "missing option " ++ o)
    else if error = ARG_ERR_MAXCOUNT then do
      let o ← printOption shortopts longopts (some argval) (cs "\n")
      .ok (cs "excess option " ++ o)
    else other argval
  .ok (progname ++ cs ": " ++ body)

/-- `arg_lit_errorfn`, arg_lit.c:63-83. -/
def litError (shortopts longopts datatype : Option CStr)
    (error : Int) (_argval : Option CStr) (progname : CStr) : M CStr :=
  if error = ARG_ERR_MINCOUNT then do
    let o ← printOption shortopts longopts datatype (cs "\n")
    .ok (progname ++ cs ": missing option " ++ o ++ cs "\n")
  else if error = ARG_ERR_MAXCOUNT then do
    let o ← printOption shortopts longopts datatype (cs "\n")
    .ok (progname ++ cs ": extraneous option " ++ o)
  else .ok []

/-- `arg_int_errorfn`, arg_int.c:216-247. -/
def intError (shortopts longopts datatype : Option CStr) (error : Int) :
    Option CStr → CStr → M CStr :=
  stdError shortopts longopts datatype (fun argval =>
    if error = ARG_ERR_BADINT then do
      let o ← printOption shortopts longopts datatype (cs "\n")
      .ok (cs "invalid argument \"" ++ argval ++ cs "\" to option " ++ o)
    else if error = ARG_ERR_OVERFLOW then do
      let o ← printOption shortopts longopts datatype (cs " ")
      .ok (cs "integer overflow at option " ++ o ++ cs "(" ++ argval ++ cs " is too large)\n")
    else .ok []) error

/-- `arg_dbl_errorfn`, arg_dbl.c:82-107. -/
def dblError (shortopts longopts datatype : Option CStr) (error : Int) :
    Option CStr → CStr → M CStr :=
  stdError shortopts longopts datatype (fun argval =>
    if error = ARG_ERR_BADDOUBLE then do
      let o ← printOption shortopts longopts datatype (cs "\n")
      .ok (cs "invalid argument \"" ++ argval ++ cs "\" to option " ++ o)
    else .ok []) error

/-- `arg_str_errorfn`, arg_str.c:77-97. -/
def strError (shortopts longopts datatype : Option CStr) (error : Int) :
    Option CStr → CStr → M CStr :=
  stdError shortopts longopts datatype (fun _ => .ok []) error

/-- `arg_file_errorfn`, arg_file.c:131-154. -/
def fileError (shortopts longopts datatype : Option CStr) (error : Int) :
    Option CStr → CStr → M CStr :=
  stdError shortopts longopts datatype (fun argval =>
    .ok (cs "unknown error at \"" ++ argval ++ cs "\"\n")) error

/-- `arg_date_errorfn`, arg_date.c:80-112; `sample` is `Libc.sample`.  If the text does not fit
`buff[200]`, its contents are indeterminate (C11 7.27.3.5) and printing them is undefined: the return value of
`strftime` is not looked at. -/
def dateError (sample : CStr → CStr) (format : CStr) (shortopts longopts datatype : Option CStr)
    (error : Int) : Option CStr → CStr → M CStr :=
  stdError shortopts longopts datatype (fun argval =>
    if error = ARG_ERR_BADDATE then
      if (sample format).length < 200 then
        .ok (cs "illegal timestamp format \"" ++ argval ++ cs "\"\n" ++
          cs "correct format is \"" ++ sample format ++ cs "\"\n")
      else .error (.ub "use of an indeterminate buffer")
    else .ok []) error

/-- `arg_rex_errorfn`, arg_rex.c:177-210. -/
def rexError (shortopts longopts datatype : Option CStr) (error : Int) :
    Option CStr → CStr → M CStr :=
  stdError shortopts longopts datatype (fun argval =>
    if error = ARG_ERR_REGNOMATCH then do
      let o ← printOption shortopts longopts (some argval) (cs "\n")
      .ok (cs "illegal value  " ++ o)
    else .ok []) error

/-! ## Constructors -/

/-- `maxcount = (maxcount < mincount) ? mincount : maxcount`, e.g. arg_int.c:262. -/
def foolproof (mincount maxcount : Int) : Int := if maxcount < mincount then mincount else maxcount

/-- `arg_litn`, arg_lit.c:92-119. -/
def argLitn (shortopts longopts : Option CStr) (mincount maxcount : Int) (glossary : Option CStr) :
    Hdr (Obj δ) :=
  let maxcount := foolproof mincount maxcount
  { hasValue := false, hasOptValue := false, shortopts, longopts, datatype := none, glossary,
    mincount, maxcount,
    parent := .lit 0
    resetfn := some fun
      | .lit _ => .ok (.lit 0)
      | _ => confused
    scanfn := some fun
      | .lit c, _ => .ok (.lit (litScan maxcount c).1, (litScan maxcount c).2)
      | _, _ => confused
    checkfn := some fun o => countCheck mincount o.count
    errorfn := some fun _ => litError shortopts longopts none }

/-- The size computation `sizeof(struct) + (size_t)maxcount * size` wraps around for a negative
`maxcount`, so that less than the struct itself is allocated; the constructor then writes out of
bounds.  (arg_int.c:262 and the other constructors.) -/
def arrayCells (maxcount : Int) : M Nat :=
  if maxcount < 0 then .error (.ub "allocation smaller than the struct") else .ok maxcount.toNat

/-- `arg_intn`, arg_int.c:257-289. -/
def argIntn (shortopts longopts datatype : Option CStr) (mincount maxcount : Int)
    (glossary : Option CStr) : M (Hdr (Obj δ)) := do
  let maxcount := foolproof mincount maxcount
  let n ← arrayCells maxcount
  let datatype := some (datatype.getD (cs "<int>"))
  .ok { hasValue := true, hasOptValue := false, shortopts, longopts, datatype, glossary,
        mincount, maxcount,
        parent := .int { count := 0, ival := List.replicate n none }
        resetfn := some fun
          | .int o => .ok (.int { o with count := 0 })
          | _ => confused
        scanfn := some fun
          | .int o, a => do
            let (o, e) ← intScan maxcount o a
            .ok (.int o, e)
          | _, _ => confused
        checkfn := some fun o => countCheck mincount o.count
        errorfn := some fun _ => intError shortopts longopts datatype }

/-- The number of doubles that fit from the aligned start of `dval[]` to the end of the allocation,
arg_dbl.c:126-128 and 147-149; `addr` is the address just after the struct. -/
def dblCells (addr : Nat) (maxcount : Nat) : Nat :=
  (addr + (maxcount + 1) * 8 - (addr + 8 - addr % 8)) / 8

/-- `arg_dbln`, arg_dbl.c:117-159. -/
def argDbln (lc : Libc δ) (addr : Nat) (shortopts longopts datatype : Option CStr)
    (mincount maxcount : Int) (glossary : Option CStr) : M (Hdr (Obj δ)) := do
  let maxcount := foolproof mincount maxcount
  let n ← arrayCells maxcount
  let datatype := some (datatype.getD (cs "<double>"))
  .ok { hasValue := true, hasOptValue := false, shortopts, longopts, datatype, glossary,
        mincount, maxcount,
        parent := .dbl { count := 0, dval := List.replicate (dblCells addr n) none }
        resetfn := some fun
          | .dbl o => .ok (.dbl { o with count := 0 })
          | _ => confused
        scanfn := some fun
          | .dbl o, a => do
            let (o, e) ← dblScan lc.strtod maxcount o a
            .ok (.dbl o, e)
          | _, _ => confused
        checkfn := some fun o => countCheck mincount o.count
        errorfn := some fun _ => dblError shortopts longopts datatype }

/-- `arg_strn`, arg_str.c:107-146. -/
def argStrn (shortopts longopts datatype : Option CStr) (mincount maxcount : Int)
    (glossary : Option CStr) : M (Hdr (Obj δ)) := do
  let maxcount := foolproof mincount maxcount
  let n ← arrayCells maxcount
  let datatype := some (datatype.getD (cs "<string>"))
  .ok { hasValue := true, hasOptValue := false, shortopts, longopts, datatype, glossary,
        mincount, maxcount,
        parent := .str { count := 0, sval := List.replicate n [] }
        resetfn := some fun
          | .str o => do
            let o ← strReset o
            .ok (.str o)
          | _ => confused
        scanfn := some fun
          | .str o, a => do
            let (o, e) ← strScan maxcount o a
            .ok (.str o, e)
          | _, _ => confused
        checkfn := some fun o => countCheck mincount o.count
        errorfn := some fun _ => strError shortopts longopts datatype }

/-- `arg_filen`, arg_file.c:164-208. -/
def argFilen (shortopts longopts datatype : Option CStr) (mincount maxcount : Int)
    (glossary : Option CStr) : M (Hdr (Obj δ)) := do
  let maxcount := foolproof mincount maxcount
  let n ← arrayCells maxcount
  let datatype := some (datatype.getD (cs "<file>"))
  .ok { hasValue := true, hasOptValue := false, shortopts, longopts, datatype, glossary,
        mincount, maxcount,
        parent := .file { count := 0, filename := List.replicate n [],
                          basename := List.replicate n [], extension := List.replicate n [] }
        resetfn := some fun
          | .file o => .ok (.file { o with count := 0 })
          | _ => confused
        scanfn := some fun
          | .file o, a => do
            let (o, e) ← fileScan maxcount o a
            .ok (.file o, e)
          | _, _ => confused
        checkfn := some fun o => countCheck mincount o.count
        errorfn := some fun _ => fileError shortopts longopts datatype }

/-- `arg_daten`, arg_date.c:122-164. -/
def argDaten (lc : Libc δ) (shortopts longopts format datatype : Option CStr)
    (mincount maxcount : Int) (glossary : Option CStr) : M (Hdr (Obj δ)) := do
  let maxcount := foolproof mincount maxcount
  let format := format.getD (cs "%x")
  let n ← arrayCells maxcount
  let datatype := some (datatype.getD format)
  .ok { hasValue := true, hasOptValue := false, shortopts, longopts, datatype, glossary,
        mincount, maxcount,
        parent := .date { count := 0, tmval := List.replicate n {} }
        resetfn := some fun
          | .date o => .ok (.date { o with count := 0 })
          | _ => confused
        scanfn := some fun
          | .date o, a => do
            let (o, e) ← dateScan format maxcount o a
            .ok (.date o, e)
          | _, _ => confused
        checkfn := some fun o => countCheck mincount o.count
        errorfn := some fun _ => dateError lc.sample format shortopts longopts datatype }

/-- `arg_rexn`, arg_rex.c:220-293, for a non-NULL pattern; `icase` is `flags & TREX_ICASE`.  The pattern
is compiled once to print a diagnostic. -/
def argRexn (shortopts longopts : Option CStr) (pattern : CStr) (datatype : Option CStr)
    (mincount maxcount : Int) (icase : Bool) (glossary : Option CStr) : M (Hdr (Obj δ)) := do
  let maxcount := foolproof mincount maxcount
  let n ← arrayCells maxcount
  let _ ← rexCompile pattern
  let datatype := some (datatype.getD pattern)
  .ok { hasValue := true, hasOptValue := false, shortopts, longopts, datatype, glossary,
        mincount, maxcount,
        parent := .rex { count := 0, sval := List.replicate n [] }
        resetfn := some fun
          | .rex o => .ok (.rex { o with count := 0 })
          | _ => confused
        scanfn := some fun
          | .rex o, a => do
            let (o, e) ← rexScan pattern icase maxcount o a
            .ok (.rex o, e)
          | _, _ => confused
        checkfn := some fun o => countCheck mincount o.count
        errorfn := some fun _ => rexError shortopts longopts datatype }

/-- `arg_rem`, arg_rem.c:41-59. -/
def argRem (datatype glossary : Option CStr) : Hdr (Obj δ) :=
  { hasValue := false, hasOptValue := false, shortopts := none, longopts := none, datatype, glossary,
    mincount := 1, maxcount := 1, parent := .rem, resetfn := none, scanfn := none, checkfn := none,
    errorfn := none }

/-- `arg_end`, arg_end.c:78-113.  `junk` is the content of the uninitialised cells and `junkCount` that
of the uninitialised member `count`. -/
def argEnd (maxcount : Int) (junk : ErrRec) (junkCount : Nat) : M EndTbl := do
  let n ← arrayCells maxcount
  .ok { maxcount, slots := List.replicate n junk, count := junkCount }

/-! ## Error messages -/

/-- `arg_end_errorfn`, arg_end.c:46-76.  `%c` prints the character with code `error`, or nothing for
code 0. -/
def endError (error : Int) (argval : Option CStr) (progname : CStr) : CStr :=
  let argval := argval.getD []
  progname ++ cs ": " ++
  (if error = ARG_ELIMIT then cs "too many errors to display"
   else if error = ARG_EMALLOC then cs "insufficient memory"
   else if error = ARG_ENOMATCH then cs "unexpected argument \"" ++ argval ++ cs "\""
   else if error = ARG_EMISSARG then cs "option \"" ++ argval ++ cs "\" requires an argument"
   else if error = ARG_ELONGOPT then cs "invalid option \"" ++ argval ++ cs "\""
   else if error = 0 then cs "invalid option \"-"
   else cs "invalid option \"-" ++ [intChar error] ++ cs "\"") ++ cs "\n"

/-- One call of an error function in `arg_print_errors_ds`, arg_end.c:119-121. -/
def printError {σ : Type} (es : List (Hdr σ)) (progname : CStr) (r : ErrRec) : M CStr :=
  match r.parent with
  | .endt => .ok (endError r.error r.argval progname)
  | .entry i =>
    match es[i]? with
    | none => .error (.ub "dangling parent pointer")
    | some h =>
      match h.errorfn with
      | none => .ok []
      | some f => f h.parent r.error r.argval progname

/-- The loop of `arg_print_errors_ds`. -/
def printErrorsLoop {σ : Type} (es : List (Hdr σ)) (progname : CStr) : List ErrRec → M CStr
  | [] => .ok []
  | r :: rs => do
    let a ← printError es progname r
    let b ← printErrorsLoop es progname rs
    .ok (a ++ b)

/-- `arg_print_errors_ds`, arg_end.c:115-123.  Reading the arrays beyond their length is a fault. -/
def printErrors {σ : Type} (t : Table σ) (progname : CStr) : M CStr :=
  if t.fin.count ≤ t.fin.slots.length then
    printErrorsLoop t.entries progname (t.fin.slots.take t.fin.count)
  else .error (.ub "arg_print_errors: index out of range")

end Argtable
