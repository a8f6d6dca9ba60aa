import Verif.Model.GetoptInt
import Verif.Model.Parse
/-!
# `arg_parse`, with `int` variables

As `Model/Parse.lean`, but `argc`, `optind`, `tabindex`, `noptions` and what `find_shortoption` returns are C integers, and the getopt called
is the one of `Model/GetoptInt.lean`.  `table[tabindex]` is undefined for an index below 0 or behind the terminator.  The terminator is
not among `t.entries`: it is the element at index `t.entries.length`.
-/

namespace Argtable

variable {σ : Type}

/-- `table[tabindex]`: an entry, or `none` for the terminator.  (argtable3.c:228-233 and 333-415.) -/
def entryInt (es : List (Hdr σ)) (i : Int) : M (Option (Hdr σ)) :=
  if i = es.length then .ok none
  else do
    let h ← getInt es i
    .ok (some h)

/-- `argv[optind - 1]`, argtable3.c:272, 291, 305. -/
def argvPrevInt (s : IntState) : M (Option CStr) := do
  let k ← int32 (s.optind - 1)
  argvInt s.nargv k

/-- `scanfn(parent, optarg)` of entry `i`, argtable3.c:275-279 and 317-322. -/
def scanEntryInt (t : Table σ) (i : Int) (optarg : Option CStr) : M (Table σ) := do
  let h ← getInt t.entries i
  match h.scanfn with
  | none => .ok t
  | some f => do
    let (p, err) ← f h.parent optarg
    let es ← setInt t.entries i { h with parent := p }
    let t := { t with entries := es }
    if err ≠ 0 then do
      let e ← registerError t.fin (.entry i.toNat) err optarg
      .ok { t with fin := e }
    else .ok t

/-- `find_shortoption`, argtable3.c:78-85: -1 if there is none.  `fuel` bounds the number of rounds. -/
def findShortInt (c : Char) (es : List (Hdr σ)) : (fuel : Nat) → (tabindex : Int) → M Int
  | 0, _ => .error .fuel
  | fuel + 1, tabindex => do
    match ← entryInt es tabindex with
    | none => .ok (-1)
    | some h =>
      match h.shortopts with
      | some so =>
        if (strchr so c).isSome then .ok tabindex
        else do
          let i ← int32 (tabindex + 1)
          findShortInt c es fuel i
      | none => do
        let i ← int32 (tabindex + 1)
        findShortInt c es fuel i

/-- The body of the `while` loop of `arg_parse_tagged`, argtable3.c:265-326. -/
def taggedBodyInt (copt : Int) (s : IntState) (t : Table σ) : M (Table σ) :=
  if copt = 0 then do
    let h ← getInt t.entries s.getoptval
    let t ← if s.optarg = some [] ∧ h.hasValue then do
              let a ← argvPrevInt s
              regEnd t ARG_EMISSARG a
            else .ok t
    scanEntryInt t s.getoptval s.optarg
  else if copt = 63 then
    if s.optopt = 0 then do
      let a ← argvPrevInt s
      regEnd t ARG_ELONGOPT a
    else regEnd t s.optopt none
  else if copt = 58 then do
    let a ← argvPrevInt s
    regEnd t ARG_EMISSARG a
  else do
    let i ← findShortInt (intChar copt) t.entries (t.entries.length + 1) 0
    if i = -1 then regEnd t copt none
    else scanEntryInt t i s.optarg

/-- The `while` loop of `arg_parse_tagged`, argtable3.c:257-327; `idx` is NULL. -/
def taggedLoopInt (posixEnv : Bool) (nargc : Int) (sopts : CStr) (lopts : List LongOpt) :
    (fuel : Nat) → IntState → Table σ → M (IntState × Table σ)
  | 0, _, _ => .error .fuel
  | fuel + 1, s, t => do
    let (copt, s) ← getoptLongInt posixEnv nargc sopts lopts false s
    if copt = -1 then .ok (s, t)
    else do
      let t ← taggedBodyInt copt s t
      taggedLoopInt posixEnv nargc sopts lopts fuel s t

/-- `alloc_longoptions`, argtable3.c:112-187.  `noptions` starts at 1 and only grows, so it is enough that the last value fits;
`option_index` is smaller; `tabindex` goes up to one more than the index of the terminator (line 139). -/
def allocLongInt (es : List (Hdr σ)) : M (List LongOpt) := do
  let (noptions, longoptlen) ← countPass es 1 0
  let _ ← int32 noptions
  let _ ← int32 (es.length + 1)
  fillPass noptions longoptlen es 0 [] 0

/-- `arg_parse_tagged`, argtable3.c:235-331. -/
def parseTaggedInt (posixEnv : Bool) (fuel : Nat) (nargc : Int) (s : IntState) (t : Table σ) : M (IntState × Table σ) := do
  let lopts ← allocLongInt t.entries
  let sopts ← allocShortoptions t.entries
  taggedLoopInt posixEnv nargc sopts lopts fuel { s with optind := 0, opterr := 0 } t

/-- Final loop of `arg_parse_untagged`, argtable3.c:396-399.  `fuel` bounds the number of rounds. -/
def restErrorsInt (argv : List CStr) (nargc : Int) : (fuel : Nat) → (optind : Int) → Table σ → M (Int × Table σ)
  | 0, _, _ => .error .fuel
  | fuel + 1, optind, t =>
    if optind < nargc then do
      let a ← argvInt argv optind
      let n ← int32 (optind + 1)
      let t ← regEnd t ARG_ENOMATCH a
      restErrorsInt argv nargc fuel n t
    else .ok (optind, t)

/-- `arg_parse_untagged`, argtable3.c:333-402.  `last` as in `parseUntagged`.  `fuel` bounds the number of rounds. -/
def parseUntaggedInt (argv : List CStr) (nargc : Int) : (fuel : Nat) → (tabindex optind : Int) → (last : Option (Int × CStr × Int)) →
    Table σ → M (Int × Table σ)
  | 0, _, _, _, _ => .error .fuel
  | fuel + 1, tabindex, optind, last, t => do
    match ← entryInt t.entries tabindex with
    | some h =>
      if optind ≥ nargc then .ok (optind, t)
      else if h.longopts.isSome ∨ h.shortopts.isSome then do
        let i ← int32 (tabindex + 1)
        parseUntaggedInt argv nargc fuel i optind last t
      else match h.scanfn with
        | none => do
          let i ← int32 (tabindex + 1)
          parseUntaggedInt argv nargc fuel i optind last t
        | some f => do
          let a ← getInt argv optind
          let (p, err) ← f h.parent (some a)
          let es ← setInt t.entries tabindex { h with parent := p }
          if err = 0 then do
            let n ← int32 (optind + 1)
            parseUntaggedInt argv nargc fuel tabindex n none { t with entries := es }
          else do
            let i ← int32 (tabindex + 1)
            parseUntaggedInt argv nargc fuel i optind (some (err, a, tabindex)) { t with entries := es }
    | none =>
      match last with
      | some (err, a, i) => do
        let e ← registerError t.fin (.entry i.toNat) err (some a)
        let n ← int32 (optind + 1)
        restErrorsInt argv nargc (nargc.toNat + 1) n { t with fin := e }
      | none => restErrorsInt argv nargc (nargc.toNat + 1) optind t

/-- `arg_parse_check`, argtable3.c:404-415: the loop ends after the terminator, where `tabindex` is still incremented. -/
def parseCheckInt (es : List (Hdr σ)) : (fuel : Nat) → (tabindex : Int) → EndTbl → M EndTbl
  | 0, _, _ => .error .fuel
  | fuel + 1, tabindex, e => do
    match ← entryInt es tabindex with
    | none => do
      let _ ← int32 (tabindex + 1)
      .ok e
    | some h =>
      match h.checkfn with
      | none => do
        let i ← int32 (tabindex + 1)
        parseCheckInt es fuel i e
      | some f =>
        if f h.parent ≠ 0 then do
          let e ← registerError e (.entry tabindex.toNat) (f h.parent) none
          let i ← int32 (tabindex + 1)
          parseCheckInt es fuel i e
        else do
          let i ← int32 (tabindex + 1)
          parseCheckInt es fuel i e

/-- `arg_reset`, argtable3.c:417-425, from `tabindex` on. -/
def resetInt : (fuel : Nat) → (tabindex : Int) → List (Hdr σ) → M (List (Hdr σ))
  | 0, _, _ => .error .fuel
  | fuel + 1, tabindex, es => do
    match ← entryInt es tabindex with
    | none => do
      let _ ← int32 (tabindex + 1)
      .ok es
    | some h =>
      match h.resetfn with
      | none => do
        let i ← int32 (tabindex + 1)
        resetInt fuel i es
      | some f => do
        let p ← f h.parent
        let es ← setInt es tabindex { h with parent := p }
        let i ← int32 (tabindex + 1)
        resetInt fuel i es

/-- `arg_parse`, argtable3.c:427-480; `argv` has `argc` elements. -/
def argParseInt (posixEnv : Bool) (fuel : Nat) (argv : List CStr) (t : Table σ) (s : IntState) : M (Nat × Table σ × IntState) := do
  let es ← resetInt (t.entries.length + 1) 0 t.entries
  let t : Table σ := { entries := es, fin := { t.fin with count := 0 } }
  let argc ← int32 argv.length
  if argc = 0 then
    let e ← parseCheckInt t.entries (t.entries.length + 1) 0 t.fin
    .ok (e.count, { t with fin := e }, s)
  else
    let _ ← int32 (argc + 1)
    let (s, t) ← parseTaggedInt posixEnv fuel argc { s with nargv := argv } t
    let (optind, t) ← parseUntaggedInt s.nargv argc (argv.length + t.entries.length + 1) 0 s.optind none t
    let s := { s with optind := optind }
    if t.fin.count = 0 then
      let e ← parseCheckInt t.entries (t.entries.length + 1) 0 t.fin
      .ok (e.count, { t with fin := e }, s)
    else .ok (t.fin.count, t, s)

end Argtable
