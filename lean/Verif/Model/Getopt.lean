import Verif.Model.Permute
/-!
# Model of the bundled getopt (arg_getopt_long.c)

Configuration: `GNU_COMPATIBLE` (defined at arg_getopt_long.c:67), not `_WIN32`.
-/

namespace Argtable

/-- `struct option`, arg_getopt.h:48-60.  argtable3 only ever uses the address of one `int` cell
(`longoptions->getoptval`) as `flag`, so the pointer is modelled by a Boolean "is not NULL". -/
structure LongOpt where
  name : CStr
  hasArg : Nat
  flag : Bool
  val : Nat
deriving DecidableEq, Repr

/-- All mutable state seen by getopt: the globals of arg_getopt_long.c:69-73, the file-level statics of
lines 102-112, the function static `posixly_correct` (line 402), the cell that `option.flag` points
to, the argument vector, and the messages written to stderr by `warnx`.

Simplifications: the sentinel −1 of `nonopt_start`/`nonopt_end`/`posixly_correct` is `none`;
`opterr`/`optreset` are Booleans; `dash_prefix` is not part of the state but an argument of `parseLongOptions`, since it
is always assigned just before `parse_long_options` is called (lines 527-536 and 584) and is read nowhere else. -/
structure GState where
  optind : Nat
  opterr : Bool
  optopt : Int
  optreset : Bool
  optarg : Option CStr
  place : CStr
  nonoptStart : Option Nat
  nonoptEnd : Option Nat
  posixly : Option Bool
  getoptval : Nat
  nargv : List CStr
  stderr : List CStr
deriving DecidableEq, Repr

/-- Reading `nargv[i]`: the vector is followed by a NULL (argtable3.c:464); beyond that the read is
out of bounds. -/
def argvAt (nargv : List CStr) (i : Nat) : M (Option CStr) :=
  if i < nargv.length then .ok nargv[i]?
  else if i = nargv.length then .ok none
  else .error (.ub "nargv: read past the terminating NULL")

/-- `BADCH`, arg_getopt_long.c:82. -/
def BADCH : Int := 63

/-- `BADARG`, arg_getopt_long.c:83. -/
def BADARG (options : CStr) : Int := if options.head? = some ':' then 58 else 63

/-- `INORDER`, arg_getopt_long.c:84. -/
def INORDER : Int := 1

/-- `recargchar`, arg_getopt_long.c:109, formatted. -/
def recargchar (c : Char) : CStr := cs "option requires an argument -- " ++ [c]

/-- `illoptchar`, arg_getopt_long.c:110, formatted. -/
def illoptchar (c : Char) : CStr := cs "illegal option -- " ++ [c]

/-- `gnuoptchar`, arg_getopt_long.c:113, formatted. -/
def gnuoptchar (c : Char) : CStr := cs "invalid option -- " ++ [c]

/-- `recargstring`, arg_getopt_long.c:115, formatted; `dash` is `current_dash` (lines 243-258). -/
def recargstring (dash cur : CStr) : CStr := cs "option `" ++ dash ++ cur ++ cs "' requires an argument"

/-- `ambig`, arg_getopt_long.c:116, formatted; `%.*s` prints `len` characters. -/
def ambigText (dash : CStr) (len : Nat) (cur : CStr) : CStr := cs "option `" ++ dash ++ cur.take len ++ cs "' is ambiguous"

/-- `noarg`, arg_getopt_long.c:117, formatted. -/
def noargText (dash : CStr) (len : Nat) (cur : CStr) : CStr :=
  cs "option `" ++ dash ++ cur.take len ++ cs "' doesn't allow an argument"

/-- `illoptstring`, arg_getopt_long.c:118, formatted. -/
def illoptstring (dash cur : CStr) : CStr := cs "unrecognized option `" ++ dash ++ cur ++ cs "'"

/-- `if (PRINT_ERROR) warnx(...)`, arg_getopt_long.c:75 and e.g. 302.  `warnx` is the C library's (line 167): it puts the
program's name and `: ` before the text and a newline after it; these are left out. -/
def warn (options : CStr) (msg : CStr) (s : GState) : GState :=
  if s.opterr && options.head? != some ':' then { s with stderr := s.stderr ++ [msg] } else s

/-- Outcome of the matching loop: `match`, `exact_match`, `second_partial_match`.  (arg_getopt_long.c:232-310.) -/
structure LongMatch where
  mtch : Option LongOpt
  exact : Bool
  second : Bool
deriving DecidableEq, Repr

/-- The loop over `long_options`, arg_getopt_long.c:272-299.  `match` is represented by the option it
indexes. -/
def matchLoop (cur : CStr) (len : Nat) (shortToo longOnly : Bool) :
    List LongOpt → (mtch : Option LongOpt) → (second : Bool) → LongMatch
  | [], mtch, second => ⟨mtch, false, second⟩
  | o :: os, mtch, second =>
    if !strncmpEq cur o.name len then matchLoop cur len shortToo longOnly os mtch second
    else if o.name.length = len then ⟨some o, true, second⟩
    else if shortToo && len == 1 then matchLoop cur len shortToo longOnly os mtch second
    else match mtch with
      | none => matchLoop cur len shortToo longOnly os (some o) second
      | some m =>
        if longOnly || o.hasArg != m.hasArg || o.flag != m.flag || o.val != m.val then
          matchLoop cur len shortToo longOnly os mtch true
        else matchLoop cur len shortToo longOnly os mtch second

/-- The pointer after the first `=` in `current_argv`, if any (arg_getopt_long.c:265-268). -/
def hasEqual (cur : CStr) : Option CStr := (strchr cur '=').map List.tail

/-- `current_argv_len`, arg_getopt_long.c:265-270. -/
def curLen (cur : CStr) : Nat := (cur.takeWhile (· != '=')).length

/-- Fetching the option's argument, arg_getopt_long.c:335-346. -/
def fetchLongArg (o : LongOpt) (he : Option CStr) (s : GState) : M GState :=
  if o.hasArg = 1 ∨ o.hasArg = 2 then
    match he with
    | some v => .ok { s with optarg := some v }
    | none =>
      if o.hasArg = 1 then do
        let v ← argvAt s.nargv s.optind
        .ok { s with optarg := v, optind := s.optind + 1 }
      else .ok s
  else .ok s

/-- `parse_long_options`, arg_getopt_long.c:231-390.  `idx` is NULL in all calls made by argtable3 and
is omitted.  `dash` is `current_dash` (lines 243-258). -/
def parseLongOptions (options : CStr) (longs : List LongOpt) (shortToo longOnly : Bool) (dash : CStr)
    (s0 : GState) : M (Int × GState) :=
  let cur := s0.place
  let s := { s0 with optind := s0.optind + 1 }
  let he := hasEqual cur
  let r := matchLoop cur (curLen cur) shortToo longOnly longs none false
  if !r.exact && r.second then
    .ok (BADCH, { warn options (ambigText dash (curLen cur) cur) s with optopt := 0 })
  else match r.mtch with
    | some o =>
      if o.hasArg = 0 ∧ he.isSome then
        .ok (BADCH, { warn options (noargText dash (curLen cur) cur) s with
                      optopt := if o.flag then 0 else o.val })
      else do
        let s ← fetchLongArg o he s
        if o.hasArg = 1 ∧ s.optarg = none then
          .ok (BADARG options, { warn options (recargstring dash cur) s with
                                 optopt := if o.flag then 0 else o.val
                                 optind := s.optind - 1 })
        else if o.flag then .ok (0, { s with getoptval := o.val })
        else .ok (o.val, s)
    | none =>
      if shortToo then .ok (-1, { s with optind := s.optind - 1 })
      else .ok (BADCH, { warn options (illoptstring dash cur) s with optopt := 0 })

/-- Result of the part of `getopt_internal` labelled `start:`: either it returns, or it goes on with
`place` at an option.  (arg_getopt_long.c:436-545.) -/
inductive Start where
  | ret (code : Int) (s : GState)
  | go (s : GState)
deriving DecidableEq, Repr

/-- End of the argument vector, arg_getopt_long.c:442-457. -/
def endOfArgs (s : GState) : M Start := do
  let s := { s with place := [] }
  match s.nonoptEnd, s.nonoptStart with
  | some e, st =>
    -- a set `nonopt_end` with unset (−1) `nonopt_start` cannot occur; index −1 would be out of range
    match st with
    | some b => do
      let v ← permuteArgs b e s.optind s.nargv
      .ok (.ret (-1) { s with nargv := v, optind := s.optind - (e - b),
                              nonoptStart := none, nonoptEnd := none })
    | none => .error (.ub "nonopt_end set without nonopt_start")
  | none, some b => .ok (.ret (-1) { s with optind := b, nonoptStart := none, nonoptEnd := none })
  | none, none => .ok (.ret (-1) { s with nonoptStart := none, nonoptEnd := none })

/-- Bookkeeping for a skipped operand, arg_getopt_long.c:481-491. -/
def skipOperand (s : GState) : M GState :=
  match s.nonoptStart, s.nonoptEnd with
  | none, _ => .ok { s with nonoptStart := some s.optind, optind := s.optind + 1 }
  | some b, some e => do
    let v ← permuteArgs b e s.optind s.nargv
    .ok { s with nargv := v, nonoptStart := some (s.optind - (e - b)), nonoptEnd := none,
                 optind := s.optind + 1 }
  | some _, none => .ok { s with optind := s.optind + 1 }

/-- `--` found, arg_getopt_long.c:502-514. -/
def foundDashDash (s : GState) : M Start := do
  let s := { s with optind := s.optind + 1, place := [] }
  match s.nonoptEnd, s.nonoptStart with
  | some e, some b => do
    let v ← permuteArgs b e s.optind s.nargv
    .ok (.ret (-1) { s with nargv := v, optind := s.optind - (e - b),
                            nonoptStart := none, nonoptEnd := none })
  | some _, none => .error (.ub "nonopt_end set without nonopt_start")
  | none, _ => .ok (.ret (-1) { s with nonoptStart := none, nonoptEnd := none })

/-- `skipOperand` advances `optind` by one. -/
theorem skipOperand_optind {s s' : GState} (h : skipOperand s = .ok s') :
    s'.optind = s.optind + 1 := by
  unfold skipOperand at h
  split at h
  · cases h; rfl
  · simp only [bind, Except.bind] at h
    split at h
    · cases h
    · cases h; rfl
  · cases h; rfl

/-- The code from label `start:` up to arg_getopt_long.c:516, including the `goto start`. -/
def scanStart (nargc : Nat) (permute allargs : Bool) (s0 : GState) : M Start :=
  if s0.optreset || s0.place.isEmpty then
    let s := { s0 with optreset := false }
    if hge : s0.optind ≥ nargc then endOfArgs s
    else
      match s.nargv[s.optind]? with
      | none => .error (.ub "nargv: read out of range")
      | some arg =>
        if arg.head? ≠ some '-' ∨ arg.tail = [] then
          let s := { s with place := [] }
          if allargs then
            .ok (.ret INORDER { s with optarg := some arg, optind := s.optind + 1 })
          else if !permute then .ok (.ret (-1) s)
          else
            match h : skipOperand s with
            | .error e => .error e
            | .ok s' => scanStart nargc permute allargs s'
        else
          let s := if s.nonoptStart.isSome && s.nonoptEnd.isNone
                   then { s with nonoptEnd := some s.optind } else s
          let s := { s with place := arg.tail }
          if arg.tail = ['-'] then foundDashDash s
          else .ok (.go s)
  else .ok (.go s0)
termination_by nargc - s0.optind
decreasing_by
  have := skipOperand_optind h
  show nargc - s'.optind < nargc - s0.optind
  rw [this]
  show nargc - (s0.optind + 1) < nargc - s0.optind
  omega

/-- The part of `getopt_internal` that handles a short option letter, arg_getopt_long.c:548-612. -/
def shortPart (nargc : Nat) (options : CStr) (longs : Option (List LongOpt)) (longOnly : Bool)
    (s : GState) : M (Int × GState) :=
  match s.place with
  | [] => .error (.ub "short option: empty place")
  | c :: place =>
    let s := { s with place := place }
    let optchar := charInt c
    match (if c = ':' ∨ (c = '-' ∧ place ≠ []) then none else strchr options c) with
    | none =>
      if c = '-' ∧ place = [] then .ok (-1, s)
      else
        let s := if place = [] then { s with optind := s.optind + 1 } else s
        .ok (BADCH, { warn options (if s.posixly ≠ some false then illoptchar c else gnuoptchar c) s with
                      optopt := optchar })
    | some oli =>
      -- `oli` is the suffix of `options` that starts with `c`; `oli[1]` is `oli.tail.head?`
      if longs.isSome ∧ c = 'W' ∧ oli.tail.head? = some ';' then
        if place ≠ [] then do
          let (r, s) ← parseLongOptions options (longs.getD []) false longOnly (cs "-W ") s
          .ok (r, { s with place := [] })
        else
          let s := { s with optind := s.optind + 1 }
          if s.optind ≥ nargc then
            .ok (BADARG options, { warn options (recargchar c) { s with place := [] } with
                                   optopt := optchar })
          else do
            let v ← argvAt s.nargv s.optind
            match v with
            | none => .error (.ub "NULL argument")
            | some v =>
              let (r, s) ← parseLongOptions options (longs.getD []) false longOnly (cs "-W ")
                             { s with place := v }
              .ok (r, { s with place := [] })
      else if oli.tail.head? ≠ some ':' then
        .ok (optchar, if place = [] then { s with optind := s.optind + 1 } else s)
      else
        let s := { s with optarg := none }
        if place ≠ [] then
          .ok (optchar, { s with optarg := some place, place := [], optind := s.optind + 1 })
        else if oli.tail.tail.head? ≠ some ':' then
          let s := { s with optind := s.optind + 1 }
          if s.optind ≥ nargc then
            .ok (BADARG options, { warn options (recargchar c) { s with place := [] } with
                                   optopt := optchar })
          else do
            let v ← argvAt s.nargv s.optind
            .ok (optchar, { s with optarg := v, place := [], optind := s.optind + 1 })
        else .ok (optchar, { s with place := [], optind := s.optind + 1 })

/-- `getopt_internal`, arg_getopt_long.c:396-613.  `posixEnv` is `getenv("POSIXLY_CORRECT") != NULL`.
The `flags` argument is split into `permute0` and `longOnly`.

Simplification: the pointer test `place != nargv[optind]` (line 524) is omitted; with
`GNU_COMPATIBLE` a lone "-" is an operand, so whenever this line is reached `place` points behind the
first character of `nargv[optind]` and the test is true.  `Model/GetoptPtr.lean` has the test, and `C68_getopt`
proves that leaving it out makes no difference. -/
def getoptInternal (posixEnv : Bool) (nargc : Nat) (options : CStr)
    (longs : Option (List LongOpt)) (permute0 longOnly : Bool) (s0 : GState) :
    M (Int × GState) := do
  let s := if s0.optind = 0 then { s0 with optind := 1, optreset := true } else s0
  let posix := if s.posixly = none ∨ s.optreset then posixEnv else s.posixly.getD posixEnv
  let s := { s with posixly := some posix }
  let allargs := options.head? = some '-'
  let permute := if allargs then permute0
                 else if posix ∨ options.head? = some '+' then false else permute0
  let options := if options.head? = some '+' ∨ options.head? = some '-' then options.tail
                 else options
  let s := { s with optarg := none }
  let s := if s.optreset then { s with nonoptStart := none, nonoptEnd := none } else s
  match ← scanStart nargc permute allargs s with
  | .ret code s => .ok (code, s)
  | .go s =>
    match longs with
    | none => shortPart nargc options longs longOnly s
    | some ls =>
      if s.place.head? = some '-' then
        let s := { s with place := s.place.tail }
        if s.place = [] then .ok (BADARG options, s)
        else do
          -- `short_too` is 0 here, so `parse_long_options` does not return −1 for "no match"
          let (optchar, s) ← parseLongOptions options ls false longOnly (cs "--") s
          if optchar ≠ -1 then .ok (optchar, { s with place := [] })
          else shortPart nargc options longs longOnly s
      else if longOnly then do
        let shortToo := match s.place.head? with
          | some c => c != ':' && (strchr options c).isSome
          | none => false
        let (optchar, s) ← parseLongOptions options ls shortToo longOnly (cs "-") s
        if optchar ≠ -1 then .ok (optchar, { s with place := [] })
        else shortPart nargc options longs longOnly s
      else shortPart nargc options longs longOnly s

/-- `getopt_long`, arg_getopt_long.c:640-647. -/
def getoptLong (posixEnv : Bool) (nargc : Nat) (options : CStr) (longs : List LongOpt)
    (s : GState) : M (Int × GState) :=
  getoptInternal posixEnv nargc options (some longs) true false s

/-- `getopt_long_only`, arg_getopt_long.c:653-660. -/
def getoptLongOnly (posixEnv : Bool) (nargc : Nat) (options : CStr) (longs : List LongOpt)
    (s : GState) : M (Int × GState) :=
  getoptInternal posixEnv nargc options (some longs) true true s

/-- `getopt`, arg_getopt_long.c:621-634. -/
def getopt (posixEnv : Bool) (nargc : Nat) (options : CStr) (s : GState) : M (Int × GState) :=
  getoptInternal posixEnv nargc options none false false s

end Argtable
