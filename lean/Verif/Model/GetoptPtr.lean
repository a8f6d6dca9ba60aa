import Verif.Model.Getopt
/-!
# The bundled getopt, with pointers

`Model/Getopt.lean` represents a `char*` by the string it points to.  Here a `char*` is a pointer: the number of a string
and an offset in it.  Reading a character behind the terminating NUL, or through a pointer to nothing, is undefined
behaviour.  Everything the code does with `place`, `optarg`, `nargv[]`, `options` and `oli` is done with pointers, as in C.
-/

namespace Argtable

/-- A `char*`: offset `off` in string number `str`.
(the type of `place`, `optarg` and of the elements of `nargv`, arg_getopt_long.c:102.) -/
structure CPtr where
  str : Nat
  off : Nat
deriving DecidableEq, Repr

/-- The strings in memory.  (those of `argv`, the option strings and `EMSG`, arg_getopt_long.c:87-102.) -/
abbrev Strs := List CStr

/-- `p + 1`.  (as in `place++`, arg_getopt_long.c:531 and 548.) -/
def CPtr.next (p : CPtr) : CPtr := { p with off := p.off + 1 }

/-- `s[i]`.  (as in `place[1]`, arg_getopt_long.c:461 and 501.) -/
def readAt (s : CStr) (i : Nat) : M Char :=
  if i < s.length then .ok (s.getD i '\x00')
  else if i = s.length then .ok '\x00'
  else .error (.ub "read past the end of a string")

/-- `*p`.  (as in `*place`, arg_getopt_long.c:439 and 525.) -/
def readChar (m : Strs) (p : CPtr) : M Char :=
  match m[p.str]? with
  | none => .error (.ub "dangling pointer")
  | some s => readAt s p.off

/-- The string at `p`, as the functions of `<string.h>` read it.
(for `strchr`, `strlen` and `strncmp`, arg_getopt_long.c:232-395.) -/
def readStr (m : Strs) (p : CPtr) : M CStr :=
  match m[p.str]? with
  | none => .error (.ub "dangling pointer")
  | some s => if p.off ≤ s.length then .ok (s.drop p.off) else .error (.ub "read past the end of a string")

/-- `strchr(s + i, c)`: the offset found, or NULL.  The terminating NUL is part of the string.
(arg_getopt_long.c:265, 537, 550.) -/
def strchrAt (s : CStr) (i : Nat) (c : Char) : M (Option Nat) :=
  if i ≤ s.length then
    if c = '\x00' then .ok (some s.length)
    else .ok (((s.drop i).findIdx? (· == c)).map (i + ·))
  else .error (.ub "read past the end of a string")

/-- `strchr(p, c)`.  (arg_getopt_long.c:265.) -/
def strchrPtr (m : Strs) (p : CPtr) (c : Char) : M (Option CPtr) :=
  match m[p.str]? with
  | none => .error (.ub "dangling pointer")
  | some s => do
    let r ← strchrAt s p.off c
    .ok (r.map fun k => { p with off := k })

/-- The state of getopt: see `GState`.  (arg_getopt_long.c:69-75 and 102-106.) -/
structure PtrState where
  optind : Nat
  opterr : Bool
  optopt : Int
  optreset : Bool
  optarg : Option CPtr
  place : CPtr
  nonoptStart : Option Nat
  nonoptEnd : Option Nat
  posixly : Option Bool
  getoptval : Nat
  nargv : List CPtr
  stderr : List CStr
deriving DecidableEq, Repr

/-- `nargv[i]`; the vector is followed by a NULL (argtable3.c:464). -/
def vecAt (v : List CPtr) (i : Nat) : M (Option CPtr) :=
  if i < v.length then .ok v[i]?
  else if i = v.length then .ok none
  else .error (.ub "nargv: read past the terminating NULL")

/-- `if (PRINT_ERROR) warnx(...)`, arg_getopt_long.c:75: `opterr && *options != ':'`, where `options` points to offset
`oo` of the string `opts`. -/
def warnPtr (opts : CStr) (oo : Nat) (msg : CStr) (s : PtrState) : M PtrState :=
  if s.opterr then do
    let c ← readAt opts oo
    .ok (if c ≠ ':' then { s with stderr := s.stderr ++ [msg] } else s)
  else .ok s

/-- `BADARG`, arg_getopt_long.c:83. -/
def badArgPtr (opts : CStr) (oo : Nat) : M Int := do
  let c ← readAt opts oo
  .ok (if c = ':' then 58 else 63)

/-- Fetching the option's argument, arg_getopt_long.c:335-346. -/
def fetchLongArgPtr (o : LongOpt) (he : Option CPtr) (s : PtrState) : M PtrState :=
  if o.hasArg = 1 ∨ o.hasArg = 2 then
    match he with
    | some v => .ok { s with optarg := some v }
    | none =>
      if o.hasArg = 1 then do
        let v ← vecAt s.nargv s.optind
        .ok { s with optarg := v, optind := s.optind + 1 }
      else .ok s
  else .ok s

/-- `current_argv_len`, arg_getopt_long.c:265-270: `eq` is `strchr(current_argv, '=')`. -/
def curLenPtr (cur : CPtr) (text : CStr) (eq : Option CPtr) : Nat :=
  match eq with
  | some p => p.off - cur.off
  | none => text.length

/-- `parse_long_options`, arg_getopt_long.c:231-390; `idx` is NULL; `dash` is `current_dash`. -/
def parseLongOptionsPtr (m : Strs) (opts : CStr) (oo : Nat) (longs : List LongOpt) (shortToo longOnly : Bool)
    (dash : CStr) (s0 : PtrState) : M (Int × PtrState) := do
  let cur := s0.place
  let s := { s0 with optind := s0.optind + 1 }
  let text ← readStr m cur
  let eq ← strchrPtr m cur '='
  let he := eq.map CPtr.next
  let r := matchLoop text (curLenPtr cur text eq) shortToo longOnly longs none false
  if !r.exact && r.second then do
    let s ← warnPtr opts oo (ambigText dash (curLenPtr cur text eq) text) s
    .ok (BADCH, { s with optopt := 0 })
  else match r.mtch with
    | some o =>
      if o.hasArg = 0 ∧ he.isSome then do
        let s ← warnPtr opts oo (noargText dash (curLenPtr cur text eq) text) s
        .ok (BADCH, { s with optopt := if o.flag then 0 else o.val })
      else do
        let s ← fetchLongArgPtr o he s
        if o.hasArg = 1 ∧ s.optarg = none then do
          let s ← warnPtr opts oo (recargstring dash text) s
          let r ← badArgPtr opts oo
          .ok (r, { s with optopt := (if o.flag then 0 else o.val), optind := s.optind - 1 })
        else if o.flag then .ok (0, { s with getoptval := o.val })
        else .ok (o.val, s)
    | none =>
      if shortToo then .ok (-1, { s with optind := s.optind - 1 })
      else do
        let s ← warnPtr opts oo (illoptstring dash text) s
        .ok (BADCH, { s with optopt := 0 })

/-- See `Start`.  (arg_getopt_long.c:436-545.) -/
inductive StartPtr where
  | ret (code : Int) (s : PtrState)
  | go (s : PtrState)
deriving DecidableEq, Repr

/-- End of the argument vector, arg_getopt_long.c:442-457; `emsg` is `EMSG`, the address of an empty string
(arg_getopt_long.c:86). -/
def endOfArgsPtr (emsg : CPtr) (s : PtrState) : M StartPtr := do
  let s := { s with place := emsg }
  match s.nonoptEnd, s.nonoptStart with
  | some e, some b => do
    let v ← permuteArgs b e s.optind s.nargv
    .ok (.ret (-1) { s with nargv := v, optind := s.optind - (e - b), nonoptStart := none, nonoptEnd := none })
  | some _, none => .error (.ub "nonopt_end set without nonopt_start")
  | none, some b => .ok (.ret (-1) { s with optind := b, nonoptStart := none, nonoptEnd := none })
  | none, none => .ok (.ret (-1) { s with nonoptStart := none, nonoptEnd := none })

/-- Bookkeeping for a skipped operand, arg_getopt_long.c:481-491. -/
def skipOperandPtr (s : PtrState) : M PtrState :=
  match s.nonoptStart, s.nonoptEnd with
  | none, _ => .ok { s with nonoptStart := some s.optind, optind := s.optind + 1 }
  | some b, some e => do
    let v ← permuteArgs b e s.optind s.nargv
    .ok { s with nargv := v, nonoptStart := some (s.optind - (e - b)), nonoptEnd := none, optind := s.optind + 1 }
  | some _, none => .ok { s with optind := s.optind + 1 }

/-- `--` found, arg_getopt_long.c:502-514. -/
def foundDashDashPtr (emsg : CPtr) (s : PtrState) : M StartPtr := do
  let s := { s with optind := s.optind + 1, place := emsg }
  match s.nonoptEnd, s.nonoptStart with
  | some e, some b => do
    let v ← permuteArgs b e s.optind s.nargv
    .ok (.ret (-1) { s with nargv := v, optind := s.optind - (e - b), nonoptStart := none, nonoptEnd := none })
  | some _, none => .error (.ub "nonopt_end set without nonopt_start")
  | none, _ => .ok (.ret (-1) { s with nonoptStart := none, nonoptEnd := none })

/-- `skipOperandPtr` advances `optind` by one. -/
theorem skipOperandPtr_optind {s s' : PtrState} (h : skipOperandPtr s = .ok s') : s'.optind = s.optind + 1 := by
  unfold skipOperandPtr at h
  split at h
  · cases h; rfl
  · simp only [bind, Except.bind] at h
    split at h
    · cases h
    · cases h; rfl
  · cases h; rfl

/-- `optreset || !*place`, arg_getopt_long.c:440. -/
def needArg (m : Strs) (s : PtrState) : M Bool :=
  if s.optreset then .ok true
  else do
    let c ← readChar m s.place
    .ok (c = '\x00')

/-- `*(place = nargv[optind]) != '-' || place[1] == '\0'`, arg_getopt_long.c:458-460. -/
def isOperandPtr (m : Strs) (p : CPtr) : M Bool := do
  let c ← readChar m p
  if c ≠ '-' then .ok true
  else do
    let d ← readChar m p.next
    .ok (d = '\x00')

/-- `place[1] != '\0' && *++place == '-' && place[1] == '\0'`, arg_getopt_long.c:502: the value, and `place` afterwards. -/
def isDashDashPtr (m : Strs) (p : CPtr) : M (Bool × CPtr) := do
  let c ← readChar m p.next
  if c = '\x00' then .ok (false, p)
  else do
    let p := p.next
    let c ← readChar m p
    if c ≠ '-' then .ok (false, p)
    else do
      let d ← readChar m p.next
      .ok (d = '\x00', p)

/-- The code from label `start:` up to arg_getopt_long.c:516, including the `goto start`. -/
def scanStartPtr (m : Strs) (emsg : CPtr) (nargc : Nat) (permute allargs : Bool) (s0 : PtrState) : M StartPtr :=
  match needArg m s0 with
  | .error e => .error e
  | .ok false => .ok (.go s0)
  | .ok true =>
    let s := { s0 with optreset := false }
    if hge : s0.optind ≥ nargc then endOfArgsPtr emsg s
    else
      match s.nargv[s.optind]? with
      | none => .error (.ub "nargv: read out of range")
      | some arg =>
        match isOperandPtr m arg with
        | .error e => .error e
        | .ok true =>
          let s := { s with place := emsg }
          if allargs then .ok (.ret INORDER { s with optarg := some arg, optind := s.optind + 1 })
          else if !permute then .ok (.ret (-1) s)
          else
            match h : skipOperandPtr s with
            | .error e => .error e
            | .ok s' => scanStartPtr m emsg nargc permute allargs s'
        | .ok false => do
          let s := if s.nonoptStart.isSome && s.nonoptEnd.isNone
                   then { s with nonoptEnd := some s.optind } else s
          let (dd, p) ← isDashDashPtr m arg
          let s := { s with place := p }
          if dd then foundDashDashPtr emsg s
          else .ok (.go s)
termination_by nargc - s0.optind
decreasing_by
  have := skipOperandPtr_optind h
  show nargc - s'.optind < nargc - s0.optind
  rw [this]
  show nargc - (s0.optind + 1) < nargc - s0.optind
  omega

/-- `(optchar = *place++) == ':' || (optchar == '-' && *place != '\0') || (oli = strchr(options, optchar)) == NULL`,
arg_getopt_long.c:548-550, where `place` is already incremented: `oli`, if the condition is false. -/
def findLetterPtr (m : Strs) (opts : CStr) (oo : Nat) (c : Char) (place : CPtr) : M (Option Nat) :=
  if c = ':' then .ok none
  else do
    let bad ← if c = '-' then do
                let d ← readChar m place
                .ok (decide (d ≠ '\x00'))
              else .ok false
    if bad then .ok none else strchrAt opts oo c

/-- `++optind` if `!*place`.  (arg_getopt_long.c:558-559 and 592-593.) -/
def stepPtr (m : Strs) (s : PtrState) : M PtrState := do
  let d ← readChar m s.place
  .ok (if d = '\x00' then { s with optind := s.optind + 1 } else s)

/-- `optchar == '-' && *place == '\0'`, arg_getopt_long.c:556. -/
def loneDashPtr (m : Strs) (c : Char) (place : CPtr) : M Bool :=
  if c = '-' then do
    let d ← readChar m place
    .ok (decide (d = '\x00'))
  else .ok false

/-- `long_options != NULL && optchar == 'W' && oli[1] == ';'`, arg_getopt_long.c:572. -/
def isWPtr (opts : CStr) (long : Bool) (c : Char) (oli : Nat) : M Bool :=
  if long && c == 'W' then do
    let d ← readAt opts (oli + 1)
    .ok (decide (d = ';'))
  else .ok false

/-- The part of `getopt_internal` that handles a short option letter, arg_getopt_long.c:548-612. -/
def shortPartPtr (m : Strs) (emsg : CPtr) (nargc : Nat) (opts : CStr) (oo : Nat) (longs : Option (List LongOpt))
    (longOnly : Bool) (s : PtrState) : M (Int × PtrState) := do
  let c ← readChar m s.place
  let s := { s with place := s.place.next }
  let optchar := charInt c
  match ← findLetterPtr m opts oo c s.place with
  | none => do
    if ← loneDashPtr m c s.place then .ok (-1, s)
    else do
      let s ← stepPtr m s
      let s ← warnPtr opts oo (if s.posixly ≠ some false then illoptchar c else gnuoptchar c) s
      .ok (BADCH, { s with optopt := optchar })
  | some oli => do
    if ← isWPtr opts longs.isSome c oli then do
      let d ← readChar m s.place
      if d ≠ '\x00' then do
        let (r, s) ← parseLongOptionsPtr m opts oo (longs.getD []) false longOnly (cs "-W ") s
        .ok (r, { s with place := emsg })
      else
        let s := { s with optind := s.optind + 1 }
        if s.optind ≥ nargc then do
          let s := { s with place := emsg }
          let s ← warnPtr opts oo (recargchar c) s
          let r ← badArgPtr opts oo
          .ok (r, { s with optopt := optchar })
        else do
          let v ← vecAt s.nargv s.optind
          match v with
          | none => .error (.ub "NULL argument")
          | some v => do
            let (r, s) ← parseLongOptionsPtr m opts oo (longs.getD []) false longOnly (cs "-W ") { s with place := v }
            .ok (r, { s with place := emsg })
    else do
      let oli := oli + 1
      let e ← readAt opts oli
      if e ≠ ':' then do
        let s ← stepPtr m s
        .ok (optchar, s)
      else do
        let s := { s with optarg := none }
        let d ← readChar m s.place
        if d ≠ '\x00' then
          .ok (optchar, { s with optarg := some s.place, place := emsg, optind := s.optind + 1 })
        else do
          let e ← readAt opts (oli + 1)
          if e ≠ ':' then
            let s := { s with optind := s.optind + 1 }
            if s.optind ≥ nargc then do
              let s := { s with place := emsg }
              let s ← warnPtr opts oo (recargchar c) s
              let r ← badArgPtr opts oo
              .ok (r, { s with optopt := optchar })
            else do
              let v ← vecAt s.nargv s.optind
              .ok (optchar, { s with optarg := v, place := emsg, optind := s.optind + 1 })
          else .ok (optchar, { s with place := emsg, optind := s.optind + 1 })

/-- `place != nargv[optind] && (*place == '-' || (flags & FLAG_LONGONLY))`, arg_getopt_long.c:524-525. -/
def tryLongPtr (m : Strs) (longOnly : Bool) (s : PtrState) : M Bool := do
  let a ← vecAt s.nargv s.optind
  if a = some s.place then .ok false
  else do
    let c ← readChar m s.place
    .ok (decide (c = '-') || longOnly)

/-- `*place != ':' && strchr(options, *place) != NULL`, arg_getopt_long.c:538. -/
def shortTooPtr (m : Strs) (opts : CStr) (oo : Nat) (place : CPtr) : M Bool := do
  let c ← readChar m place
  if c = ':' then .ok false
  else do
    let r ← strchrAt opts oo c
    .ok r.isSome

/-- `getopt_internal`, arg_getopt_long.c:396-613; `flags` is split into `permute0` and `longOnly`. -/
def getoptInternalPtr (m : Strs) (emsg : CPtr) (posixEnv : Bool) (nargc : Nat) (opts : CStr)
    (longs : Option (List LongOpt)) (permute0 longOnly : Bool) (s0 : PtrState) : M (Int × PtrState) := do
  let s := if s0.optind = 0 then { s0 with optind := 1, optreset := true } else s0
  let posix := if s.posixly = none ∨ s.optreset then posixEnv else s.posixly.getD posixEnv
  let s := { s with posixly := some posix }
  let c ← readAt opts 0
  let allargs := c = '-'
  let permute := if allargs then permute0 else if posix ∨ c = '+' then false else permute0
  let oo := if c = '+' ∨ c = '-' then 1 else 0
  let s := { s with optarg := none }
  let s := if s.optreset then { s with nonoptStart := none, nonoptEnd := none } else s
  match ← scanStartPtr m emsg nargc permute allargs s with
  | .ret code s => .ok (code, s)
  | .go s =>
    match longs with
    | none => shortPartPtr m emsg nargc opts oo longs longOnly s
    | some ls => do
      if ← tryLongPtr m longOnly s then do
        let c ← readChar m s.place
        if c = '-' then do
          let s := { s with place := s.place.next }
          let d ← readChar m s.place
          if d = '\x00' then do
            let r ← badArgPtr opts oo
            .ok (r, s)
          else do
            let (optchar, s) ← parseLongOptionsPtr m opts oo ls false longOnly (cs "--") s
            if optchar ≠ -1 then .ok (optchar, { s with place := emsg })
            else shortPartPtr m emsg nargc opts oo longs longOnly s
        else do
          let shortToo ← shortTooPtr m opts oo s.place
          let (optchar, s) ← parseLongOptionsPtr m opts oo ls shortToo longOnly (cs "-") s
          if optchar ≠ -1 then .ok (optchar, { s with place := emsg })
          else shortPartPtr m emsg nargc opts oo longs longOnly s
      else shortPartPtr m emsg nargc opts oo longs longOnly s

/-- `getopt_long`, arg_getopt_long.c:640-647. -/
def getoptLongPtr (m : Strs) (emsg : CPtr) (posixEnv : Bool) (nargc : Nat) (opts : CStr) (longs : List LongOpt)
    (s : PtrState) : M (Int × PtrState) :=
  getoptInternalPtr m emsg posixEnv nargc opts (some longs) true false s

/-- `getopt_long_only`, arg_getopt_long.c:653-660. -/
def getoptLongOnlyPtr (m : Strs) (emsg : CPtr) (posixEnv : Bool) (nargc : Nat) (opts : CStr) (longs : List LongOpt)
    (s : PtrState) : M (Int × PtrState) :=
  getoptInternalPtr m emsg posixEnv nargc opts (some longs) true true s

/-- `getopt`, arg_getopt_long.c:621-634. -/
def getoptPtr (m : Strs) (emsg : CPtr) (posixEnv : Bool) (nargc : Nat) (opts : CStr) (s : PtrState) : M (Int × PtrState) :=
  getoptInternalPtr m emsg posixEnv nargc opts none false false s

end Argtable
