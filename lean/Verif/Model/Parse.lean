import Verif.Model.Table
/-!
# Model of `arg_parse` (argtable3.c:235-480)
-/

namespace Argtable

variable {σ : Type}

/-- Reading `argv[optind - 1]` (argtable3.c:272, 291, 305). -/
def argvPrev (g : GState) : M (Option CStr) :=
  if g.optind = 0 then .error (.ub "argv[-1]") else argvAt g.nargv (g.optind - 1)

/-- `scanfn(parent, optarg)` of entry `i` and registration of its error, argtable3.c:275-279 and
317-322. -/
def scanEntry (t : Table σ) (i : Nat) (optarg : Option CStr) : M (Table σ) :=
  match t.entries[i]? with
  | none => .error (.ub "table index out of range")
  | some h =>
    match h.scanfn with
    | none => .ok t
    | some f => do
      let (p, err) ← f h.parent optarg
      let t := { t with entries := t.entries.set i { h with parent := p } }
      if err ≠ 0 then do
        let e ← registerError t.fin (.entry i) err optarg
        .ok { t with fin := e }
      else .ok t

/-- `arg_register_error(endtable, endtable, error, argval)`. -/
def regEnd (t : Table σ) (error : Int) (argval : Option CStr) : M (Table σ) := do
  let e ← registerError t.fin .endt error argval
  .ok { t with fin := e }

/-- The body of the `while` loop of `arg_parse_tagged`, argtable3.c:265-326. -/
def taggedBody (copt : Int) (g : GState) (t : Table σ) : M (Table σ) :=
  if copt = 0 then
    let i := g.getoptval
    match t.entries[i]? with
    | none => .error (.ub "table index out of range")
    | some h => do
      let t ← if g.optarg = some [] ∧ h.hasValue then do
                let a ← argvPrev g
                regEnd t ARG_EMISSARG a
              else .ok t
      scanEntry t i g.optarg
  else if copt = 63 then
    if g.optopt = 0 then do
      let a ← argvPrev g
      regEnd t ARG_ELONGOPT a
    else regEnd t g.optopt none
  else if copt = 58 then do
    let a ← argvPrev g
    regEnd t ARG_EMISSARG a
  else
    match findShortoption (intChar copt) t.entries 0 with
    | none => regEnd t copt none
    | some i => scanEntry t i g.optarg

/-- The `while` loop of `arg_parse_tagged`, argtable3.c:257-327; at most `fuel` calls of
`getopt_long`. -/
def taggedLoop (posixEnv : Bool) (nargc : Nat) (sopts : CStr) (lopts : List LongOpt) :
    (fuel : Nat) → GState → Table σ → M (GState × Table σ)
  | 0, _, _ => .error .fuel
  | fuel + 1, g, t => do
    let (copt, g) ← getoptLong posixEnv nargc sopts lopts g
    if copt = -1 then .ok (g, t)
    else do
      let t ← taggedBody copt g t
      taggedLoop posixEnv nargc sopts lopts fuel g t

/-- `arg_parse_tagged`, argtable3.c:235-331. -/
def parseTagged (posixEnv : Bool) (fuel : Nat) (nargc : Nat) (g : GState) (t : Table σ) :
    M (GState × Table σ) := do
  let lopts ← allocLongoptions t.entries
  let sopts ← allocShortoptions t.entries
  taggedLoop posixEnv nargc sopts lopts fuel { g with optind := 0, opterr := false } t

/-- Final loop of `arg_parse_untagged`, argtable3.c:396-399. -/
def restErrors (argv : List CStr) (nargc : Nat) (optind : Nat) (t : Table σ) :
    M (Nat × Table σ) :=
  if optind < nargc then do
    let a ← argvAt argv optind
    let t ← regEnd t ARG_ENOMATCH a
    restErrors argv nargc (optind + 1) t
  else .ok (optind, t)
termination_by nargc - optind

/-- `arg_parse_untagged`, argtable3.c:333-402.  `last` is the tentative error
`(errorlast, optarglast, parentlast)`, `none` when `errorlast` is 0.  Returns the new `optind`. -/
def parseUntagged (argv : List CStr) (nargc : Nat) (tabindex optind : Nat)
    (last : Option (Int × CStr × Nat)) (t : Table σ) : M (Nat × Table σ) :=
  if htab : tabindex < t.entries.length then
    if hopt : optind ≥ nargc then .ok (optind, t)
    else
      let h := t.entries[tabindex]
      if h.longopts.isSome ∨ h.shortopts.isSome then
        parseUntagged argv nargc (tabindex + 1) optind last t
      else match h.scanfn with
        | none => parseUntagged argv nargc (tabindex + 1) optind last t
        | some f =>
          match argv[optind]? with
          | none => .error (.ub "argv: read out of range")
          | some a =>
            match f h.parent (some a) with
            | .error e => .error e
            | .ok (p, err) =>
              if err = 0 then
                parseUntagged argv nargc tabindex (optind + 1) none
                  { t with entries := t.entries.set tabindex { h with parent := p } }
              else
                parseUntagged argv nargc (tabindex + 1) optind (some (err, a, tabindex))
                  { t with entries := t.entries.set tabindex { h with parent := p } }
  else
    match last with
    | some (err, a, i) => do
      let e ← registerError t.fin (.entry i) err (some a)
      restErrors argv nargc (optind + 1) { t with fin := e }
    | none => restErrors argv nargc optind t
termination_by (nargc - optind) + (t.entries.length - tabindex)
decreasing_by
  all_goals simp
  all_goals omega

/-- `arg_parse_check`, argtable3.c:404-415, from table index `i` on (the terminator has no
`checkfn`, arg_end.c:99). -/
def parseCheck : List (Hdr σ) → (i : Nat) → EndTbl → M EndTbl
  | [], _, e => .ok e
  | h :: t, i, e =>
    match h.checkfn with
    | none => parseCheck t (i + 1) e
    | some f =>
      if f h.parent ≠ 0 then do
        let e ← registerError e (.entry i) (f h.parent) none
        parseCheck t (i + 1) e
      else parseCheck t (i + 1) e

/-- `arg_reset` for the entries before the terminator, argtable3.c:417-425. -/
def resetEntries : List (Hdr σ) → M (List (Hdr σ))
  | [] => .ok []
  | h :: t => do
    let h ← match h.resetfn with
      | none => .ok h
      | some f => do
        let p ← f h.parent
        .ok { h with parent := p }
    let t ← resetEntries t
    .ok (h :: t)

/-- `arg_reset`, argtable3.c:417-425; the terminator's reset function is arg_end.c:41-44. -/
def argReset (t : Table σ) : M (Table σ) := do
  let es ← resetEntries t.entries
  .ok { entries := es, fin := { t.fin with count := 0 } }

/-- `arg_parse`, argtable3.c:427-480.  `argv` has `argc` elements; the result is the return value,
the new table and the new getopt state (whose `nargv` is the final content of the private copy
`argvcopy`). -/
def argParse (posixEnv : Bool) (fuel : Nat) (argv : List CStr) (t : Table σ) (g : GState) :
    M (Nat × Table σ × GState) := do
  let t ← argReset t
  if argv.length = 0 then
    let e ← parseCheck t.entries 0 t.fin
    .ok (e.count, { t with fin := e }, g)
  else
    let (g, t) ← parseTagged posixEnv fuel argv.length { g with nargv := argv } t
    let (optind, t) ← parseUntagged g.nargv argv.length 0 g.optind none t
    let g := { g with optind := optind }
    if t.fin.count = 0 then
      let e ← parseCheck t.entries 0 t.fin
      .ok (e.count, { t with fin := e }, g)
    else .ok (t.fin.count, t, g)

end Argtable
