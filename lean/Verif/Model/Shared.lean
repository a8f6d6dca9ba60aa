import Verif.Model.Parse
/-!
# `arg_parse` with callbacks that share memory (argtable3.c:235-480)

`Model/Parse.lean` takes for granted that each callback (`resetfn`, `scanfn`, `checkfn`) works on the object of its own
entry, and that the entries are distinct objects.  The functions of a program's own entry types need not be like this:
they are ordinary C functions, and the same object, or the same pointer, may occur in the table several times.  Here
the callbacks read and change one common memory `W`, and getopt's global variables.

Not modelled: callbacks that change the headers of the table, the `arg_end` or the strings of the command line.
-/

namespace Argtable

variable {W : Type}

/-- `struct arg_hdr`, argtable3.h:104-118: the members that `arg_parse` looks at.  The callbacks get the memory and
getopt's variables, and leave them in a new state (their argument `parent` is a part of what they are). -/
structure SHdr (W : Type) where
  hasValue : Bool
  hasOptValue : Bool
  shortopts : Option CStr
  longopts : Option CStr
  resetfn : Option (W → GState → M (W × GState))
  scanfn : Option (W → GState → Option CStr → M (W × GState × Int))
  checkfn : Option (W → GState → M (W × GState × Int))

/-- The header without its callbacks, for the functions of `Model/Table.lean`, which do not use them.
(argtable3.c:78-225.) -/
def SHdr.fixed (h : SHdr W) : Hdr Unit :=
  ⟨h.hasValue, h.hasOptValue, h.shortopts, h.longopts, none, none, 0, 0, (), none, none, none, none⟩

/-- The state of `arg_parse`: the memory, the `arg_end`, and getopt's variables. -/
structure SState (W : Type) where
  world : W
  fin : EndTbl
  g : GState

/-- What a callback leaves of getopt's variables.  The private copy of the command line (argtable3.c:453-464) and
`longoptions->getoptval` (argtable3.c:145, 175) belong to one call of `arg_parse`; no callback can reach them. -/
def leftBy (g g' : GState) : GState := { g' with nargv := g.nargv, getoptval := g.getoptval }

/-- `arg_register_error(endtable, parent, error, argval)`. -/
def sRegister (s : SState W) (p : Parent) (error : Int) (argval : Option CStr) : M (SState W) := do
  let e ← registerError s.fin p error argval
  .ok { s with fin := e }

/-- `scanfn(parent, optarg)` of entry `i` and registration of its error, argtable3.c:275-279 and 315-320.  The variable
`optarg` is read again for the error. -/
def sScan (es : List (SHdr W)) (i : Nat) (s : SState W) : M (SState W) :=
  match es[i]? with
  | none => .error (.ub "table index out of range")
  | some h =>
    match h.scanfn with
    | none => .ok s
    | some f => do
      let (w, g, err) ← f s.world s.g s.g.optarg
      let s := { s with world := w, g := leftBy s.g g }
      if err ≠ 0 then sRegister s (.entry i) err s.g.optarg else .ok s

/-- The body of the `while` loop of `arg_parse_tagged`, argtable3.c:265-326. -/
def sBody (es : List (SHdr W)) (copt : Int) (s : SState W) : M (SState W) :=
  if copt = 0 then
    let i := s.g.getoptval
    match es[i]? with
    | none => .error (.ub "table index out of range")
    | some h => do
      let s ← if s.g.optarg = some [] ∧ h.hasValue then do
                let a ← argvPrev s.g
                sRegister s .endt ARG_EMISSARG a
              else .ok s
      sScan es i s
  else if copt = 63 then
    if s.g.optopt = 0 then do
      let a ← argvPrev s.g
      sRegister s .endt ARG_ELONGOPT a
    else sRegister s .endt s.g.optopt none
  else if copt = 58 then do
    let a ← argvPrev s.g
    sRegister s .endt ARG_EMISSARG a
  else
    match findShortoption (intChar copt) (es.map SHdr.fixed) 0 with
    | none => sRegister s .endt copt none
    | some i => sScan es i s

/-- The `while` loop of `arg_parse_tagged`, argtable3.c:257-327; at most `fuel` calls of `getopt_long`. -/
def sLoop (es : List (SHdr W)) (posixEnv : Bool) (nargc : Nat) (sopts : CStr) (lopts : List LongOpt) :
    (fuel : Nat) → SState W → M (SState W)
  | 0, _ => .error .fuel
  | fuel + 1, s => do
    let (copt, g) ← getoptLong posixEnv nargc sopts lopts s.g
    if copt = -1 then .ok { s with g }
    else do
      let s ← sBody es copt { s with g }
      sLoop es posixEnv nargc sopts lopts fuel s

/-- `arg_parse_tagged`, argtable3.c:235-331. -/
def sTagged (es : List (SHdr W)) (posixEnv : Bool) (fuel : Nat) (nargc : Nat) (s : SState W) : M (SState W) := do
  let lopts ← allocLongoptions (es.map SHdr.fixed)
  let sopts ← allocShortoptions (es.map SHdr.fixed)
  sLoop es posixEnv nargc sopts lopts fuel { s with g := { s.g with optind := 0, opterr := false } }

/-- Final loop of `arg_parse_untagged`, argtable3.c:396-399, with `k` rounds at most. -/
def sRest (nargc : Nat) : (k : Nat) → SState W → M (SState W)
  | 0, s => .ok s
  | k + 1, s =>
    if s.g.optind < nargc then do
      let a ← argvAt s.g.nargv s.g.optind
      let s ← sRegister s .endt ARG_ENOMATCH a
      sRest nargc k { s with g := { s.g with optind := s.g.optind + 1 } }
    else .ok s

/-- `arg_parse_untagged`, argtable3.c:333-402; at most `fuel` rounds.  `last` is the tentative error
`(errorlast, optarglast, parentlast)`, `none` when `errorlast` is 0.  The global variable `optind` is read again after
each call of a callback. -/
def sUntagged (es : List (SHdr W)) (nargc : Nat) :
    (fuel : Nat) → (tabindex : Nat) → Option (Int × Option CStr × Nat) → SState W → M (SState W)
  | 0, _, _, _ => .error .fuel
  | fuel + 1, i, last, s =>
    match es[i]? with
    | some h =>
      if s.g.optind ≥ nargc then .ok s
      else if h.longopts.isSome ∨ h.shortopts.isSome then sUntagged es nargc fuel (i + 1) last s
      else match h.scanfn with
        | none => sUntagged es nargc fuel (i + 1) last s
        | some f => do
          let a ← argvAt s.g.nargv s.g.optind
          let (w, g, err) ← f s.world s.g a
          let s := { s with world := w, g := leftBy s.g g }
          if err = 0 then
            sUntagged es nargc fuel i none { s with g := { s.g with optind := s.g.optind + 1 } }
          else do
            let b ← argvAt s.g.nargv s.g.optind
            sUntagged es nargc fuel (i + 1) (some (err, b, i)) s
    | none =>
      match last with
      | some (err, a, j) => do
        let s ← sRegister s (.entry j) err a
        sRest nargc nargc { s with g := { s.g with optind := s.g.optind + 1 } }
      | none => sRest nargc nargc s

/-- `arg_parse_check`, argtable3.c:404-415, from table index `i` on. -/
def sCheck : List (SHdr W) → (i : Nat) → SState W → M (SState W)
  | [], _, s => .ok s
  | h :: t, i, s =>
    match h.checkfn with
    | none => sCheck t (i + 1) s
    | some f => do
      let (w, g, err) ← f s.world s.g
      let s := { s with world := w, g := leftBy s.g g }
      let s ← if err ≠ 0 then sRegister s (.entry i) err none else .ok s
      sCheck t (i + 1) s

/-- `arg_reset`, argtable3.c:417-425, for the entries before the terminator. -/
def sReset : List (SHdr W) → SState W → M (SState W)
  | [], s => .ok s
  | h :: t, s =>
    match h.resetfn with
    | none => sReset t s
    | some f => do
      let (w, g) ← f s.world s.g
      sReset t { s with world := w, g := leftBy s.g g }

/-- `arg_parse`, argtable3.c:427-480: the return value and the new state. -/
def sParse (es : List (SHdr W)) (posixEnv : Bool) (fuel : Nat) (argv : List CStr) (s : SState W) :
    M (Nat × SState W) := do
  let s ← sReset es s
  -- the reset function of the terminator, arg_end.c:41-44
  let s := { s with fin := { s.fin with count := 0 } }
  if argv.length = 0 then do
    let s ← sCheck es 0 s
    .ok (s.fin.count, s)
  else do
    let s ← sTagged es posixEnv fuel argv.length { s with g := { s.g with nargv := argv } }
    let s ← sUntagged es argv.length fuel 0 none s
    if s.fin.count = 0 then do
      let s ← sCheck es 0 s
      .ok (s.fin.count, s)
    else .ok (s.fin.count, s)

end Argtable
