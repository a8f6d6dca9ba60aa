import Verif.Model.GetoptPtr
import Verif.Model.Objects
/-!
# `arg_parse`, with pointers

`Model/Parse.lean` and the scan functions of `Model/Values.lean`, with `char*` as in `Model/GetoptPtr.lean`.  The
strings in memory `m` do not change: argtable3 writes to no argument.

`fns` are the scan functions of the entries; the fields `scanfn` and `errorfn` of the headers are not used.
-/

namespace Argtable

variable {τ : Type}

/-- `arg_scanfn`. -/
abbrev ScanPtr (τ : Type) := τ → Option CPtr → M (τ × Int)

/-- See `ErrRec`.  (argtable3.h:198-204.) -/
structure PRec where
  error : Int
  parent : Parent
  argval : Option CPtr
deriving DecidableEq, Repr

/-- `struct arg_end`, argtable3.h:198-204. -/
structure PEnd where
  maxcount : Int
  slots : List PRec
  count : Nat
deriving DecidableEq, Repr

/-- See `Table`.  (argtable3.c:427-435.) -/
structure PTable (τ : Type) where
  entries : List (Hdr τ)
  fin : PEnd

/-- `arg_register_error`, argtable3.c:60-72. -/
def registerErrorPtr (e : PEnd) (parent : Parent) (error : Int) (argval : Option CPtr) : M PEnd :=
  if (e.count : Int) < e.maxcount then
    if e.count < e.slots.length then
      .ok { e with slots := e.slots.set e.count ⟨error, parent, argval⟩, count := e.count + 1 }
    else .error (.ub "arg_register_error: index out of range")
  else
    if 0 ≤ e.maxcount - 1 ∧ e.maxcount - 1 < e.slots.length then
      .ok { e with slots := e.slots.set (e.maxcount - 1).toNat ⟨ARG_ELIMIT, .endt, none⟩ }
    else .error (.ub "arg_register_error: index out of range")

/-- `argv[optind - 1]` (argtable3.c:272, 291, 305). -/
def argvPrevPtr (s : PtrState) : M (Option CPtr) :=
  if s.optind = 0 then .error (.ub "argv[-1]") else vecAt s.nargv (s.optind - 1)

/-- `scanfn(parent, optarg)` of entry `i` and registration of its error, argtable3.c:275-279 and 317-322. -/
def scanEntryPtr (fns : List (Option (ScanPtr τ))) (t : PTable τ) (i : Nat) (optarg : Option CPtr) : M (PTable τ) :=
  match t.entries[i]? with
  | none => .error (.ub "table index out of range")
  | some h =>
    match fns[i]?.join with
    | none => .ok t
    | some f => do
      let (p, err) ← f h.parent optarg
      let t := { t with entries := t.entries.set i { h with parent := p } }
      if err ≠ 0 then do
        let e ← registerErrorPtr t.fin (.entry i) err optarg
        .ok { t with fin := e }
      else .ok t

/-- `arg_register_error(endtable, endtable, error, argval)`. -/
def regEndPtr (t : PTable τ) (error : Int) (argval : Option CPtr) : M (PTable τ) := do
  let e ← registerErrorPtr t.fin .endt error argval
  .ok { t with fin := e }

/-- `optarg && optarg[0] == 0`, argtable3.c:270. -/
def emptyArgPtr (m : Strs) (a : Option CPtr) : M Bool :=
  match a with
  | none => .ok false
  | some p => do
    let c ← readChar m p
    .ok (decide (c = '\x00'))

/-- The body of the `while` loop of `arg_parse_tagged`, argtable3.c:265-326. -/
def taggedBodyPtr (m : Strs) (fns : List (Option (ScanPtr τ))) (copt : Int) (s : PtrState) (t : PTable τ) : M (PTable τ) :=
  if copt = 0 then
    let i := s.getoptval
    match t.entries[i]? with
    | none => .error (.ub "table index out of range")
    | some h => do
      let e ← emptyArgPtr m s.optarg
      let t ← if e && h.hasValue then do
                let a ← argvPrevPtr s
                regEndPtr t ARG_EMISSARG a
              else .ok t
      scanEntryPtr fns t i s.optarg
  else if copt = 63 then
    if s.optopt = 0 then do
      let a ← argvPrevPtr s
      regEndPtr t ARG_ELONGOPT a
    else regEndPtr t s.optopt none
  else if copt = 58 then do
    let a ← argvPrevPtr s
    regEndPtr t ARG_EMISSARG a
  else
    match findShortoption (intChar copt) t.entries 0 with
    | none => regEndPtr t copt none
    | some i => scanEntryPtr fns t i s.optarg

/-- The `while` loop of `arg_parse_tagged`, argtable3.c:257-327. -/
def taggedLoopPtr (m : Strs) (emsg : CPtr) (fns : List (Option (ScanPtr τ))) (posixEnv : Bool) (nargc : Nat)
    (sopts : CStr) (lopts : List LongOpt) : (fuel : Nat) → PtrState → PTable τ → M (PtrState × PTable τ)
  | 0, _, _ => .error .fuel
  | fuel + 1, s, t => do
    let (copt, s) ← getoptLongPtr m emsg posixEnv nargc sopts lopts s
    if copt = -1 then .ok (s, t)
    else do
      let t ← taggedBodyPtr m fns copt s t
      taggedLoopPtr m emsg fns posixEnv nargc sopts lopts fuel s t

/-- `arg_parse_tagged`, argtable3.c:235-331. -/
def parseTaggedPtr (m : Strs) (emsg : CPtr) (fns : List (Option (ScanPtr τ))) (posixEnv : Bool) (fuel : Nat) (nargc : Nat)
    (s : PtrState) (t : PTable τ) : M (PtrState × PTable τ) := do
  let lopts ← allocLongoptions t.entries
  let sopts ← allocShortoptions t.entries
  taggedLoopPtr m emsg fns posixEnv nargc sopts lopts fuel { s with optind := 0, opterr := false } t

/-- Final loop of `arg_parse_untagged`, argtable3.c:396-399. -/
def restErrorsPtr (argv : List CPtr) (nargc : Nat) (optind : Nat) (t : PTable τ) : M (Nat × PTable τ) :=
  if optind < nargc then do
    let a ← vecAt argv optind
    let t ← regEndPtr t ARG_ENOMATCH a
    restErrorsPtr argv nargc (optind + 1) t
  else .ok (optind, t)
termination_by nargc - optind

/-- `arg_parse_untagged`, argtable3.c:333-402. -/
def parseUntaggedPtr (fns : List (Option (ScanPtr τ))) (argv : List CPtr) (nargc : Nat) (tabindex optind : Nat)
    (last : Option (Int × CPtr × Nat)) (t : PTable τ) : M (Nat × PTable τ) :=
  if htab : tabindex < t.entries.length then
    if hopt : optind ≥ nargc then .ok (optind, t)
    else
      let h := t.entries[tabindex]
      if h.longopts.isSome ∨ h.shortopts.isSome then
        parseUntaggedPtr fns argv nargc (tabindex + 1) optind last t
      else match fns[tabindex]?.join with
        | none => parseUntaggedPtr fns argv nargc (tabindex + 1) optind last t
        | some f =>
          match argv[optind]? with
          | none => .error (.ub "argv: read out of range")
          | some a =>
            match f h.parent (some a) with
            | .error e => .error e
            | .ok (p, err) =>
              if err = 0 then
                parseUntaggedPtr fns argv nargc tabindex (optind + 1) none
                  { t with entries := t.entries.set tabindex { h with parent := p } }
              else
                parseUntaggedPtr fns argv nargc (tabindex + 1) optind (some (err, a, tabindex))
                  { t with entries := t.entries.set tabindex { h with parent := p } }
  else
    match last with
    | some (err, a, i) => do
      let e ← registerErrorPtr t.fin (.entry i) err (some a)
      restErrorsPtr argv nargc (optind + 1) { t with fin := e }
    | none => restErrorsPtr argv nargc optind t
termination_by (nargc - optind) + (t.entries.length - tabindex)
decreasing_by
  all_goals simp
  all_goals omega

/-- `arg_parse_check`, argtable3.c:404-415. -/
def parseCheckPtr : List (Hdr τ) → (i : Nat) → PEnd → M PEnd
  | [], _, e => .ok e
  | h :: t, i, e =>
    match h.checkfn with
    | none => parseCheckPtr t (i + 1) e
    | some f =>
      if f h.parent ≠ 0 then do
        let e ← registerErrorPtr e (.entry i) (f h.parent) none
        parseCheckPtr t (i + 1) e
      else parseCheckPtr t (i + 1) e

/-- `arg_parse`, argtable3.c:427-480. -/
def argParsePtr (m : Strs) (emsg : CPtr) (fns : List (Option (ScanPtr τ))) (posixEnv : Bool) (fuel : Nat)
    (argv : List CPtr) (t : PTable τ) (s : PtrState) : M (Nat × PTable τ × PtrState) := do
  let es ← resetEntries t.entries
  let t : PTable τ := { entries := es, fin := { t.fin with count := 0 } }
  if argv.length = 0 then
    let e ← parseCheckPtr t.entries 0 t.fin
    .ok (e.count, { t with fin := e }, s)
  else
    let (s, t) ← parseTaggedPtr m emsg fns posixEnv fuel argv.length { s with nargv := argv } t
    let (optind, t) ← parseUntaggedPtr fns s.nargv argv.length 0 s.optind none t
    let s := { s with optind := optind }
    if t.fin.count = 0 then
      let e ← parseCheckPtr t.entries 0 t.fin
      .ok (e.count, { t with fin := e }, s)
    else .ok (t.fin.count, t, s)

/-! ## The objects that keep pointers -/

/-- The value part of `struct arg_str` and `struct arg_rex`. -/
structure PStrObj where
  count : Nat
  sval : List CPtr
deriving DecidableEq, Repr

/-- The value part of `struct arg_file`. -/
structure PFileObj where
  count : Nat
  filename : List CPtr
  basename : List CPtr
  extension : List CPtr
deriving DecidableEq, Repr

/-- The value part of an `arg_xxx` struct; `plain` for those that keep no pointer to an argument. -/
inductive PObj (δ : Type) where
  | plain (o : Obj δ)
  | str (o : PStrObj)
  | file (o : PFileObj)
  | rex (o : PStrObj)

/-- The `count` member.  (argtable3.h:131-191.) -/
def PObj.count {δ : Type} : PObj δ → Nat
  | .plain o => o.count
  | .str o => o.count
  | .file o => o.count
  | .rex o => o.count

/-- The loop of `arg_str_resetfn`, arg_str.c:45-47; `emsg` is the address of an empty string. -/
def strClearPtr (emsg : CPtr) : (n : Nat) → List CPtr → M (List CPtr)
  | 0, s => .ok s
  | n + 1, s => do
    let s ← strClearPtr emsg n s
    storeAt s n emsg

/-- `arg_str_resetfn`, arg_str.c:41-49. -/
def strResetPtr (emsg : CPtr) (o : PStrObj) : M PStrObj := do
  let s ← strClearPtr emsg o.count o.sval
  .ok { count := 0, sval := s }

/-- `arg_str_scanfn`, arg_str.c:51-68. -/
def strScanPtr (maxcount : Int) (o : PStrObj) (argval : Option CPtr) : M (PStrObj × Int) :=
  if (o.count : Int) = maxcount then .ok (o, ARG_ERR_MAXCOUNT)
  else match argval with
    | none => .ok ({ o with count := o.count + 1 }, 0)
    | some a => do
      let sval ← storeAt o.sval o.count a
      .ok ({ count := o.count + 1, sval := sval }, 0)

/-- `strrchr(p, c)` for `c ≠ 0`.  (arg_file.c:62-63 and 84.) -/
def strrchrPtr (m : Strs) (p : CPtr) (c : Char) : M (Option CPtr) := do
  let s ← readStr m p
  .ok ((strrchr s c).map fun r => { p with off := p.off + (s.length - r.length) })

/-- `p + strlen(p)`.  (arg_file.c:89-95.) -/
def endPtr (m : Strs) (p : CPtr) : M CPtr := do
  let s ← readStr m p
  .ok { p with off := p.off + s.length }

/-- `arg_basename`, arg_file.c:56-79, for a non-NULL file name; both separators are '/'. -/
def argBasenamePtr (m : Strs) (filename : CPtr) : M CPtr := do
  let r ← strrchrPtr m filename '/'
  let result := match r with
    | some r => r.next
    | none => filename
  let s ← readStr m result
  if s = cs "." ∨ s = cs ".." then endPtr m filename else .ok result

/-- `arg_extension`, arg_file.c:82-99, for a non-NULL base name. -/
def argExtensionPtr (m : Strs) (basename : CPtr) : M CPtr := do
  let r ← strrchrPtr m basename '.'
  let result ← match r with
    | some r => .ok r
    | none => endPtr m basename
  let result ← if result = basename then endPtr m basename else .ok result
  let s ← readStr m result
  if s.length = 1 then endPtr m basename else .ok result

/-- `arg_file_scanfn`, arg_file.c:101-122. -/
def fileScanPtr (m : Strs) (maxcount : Int) (o : PFileObj) (argval : Option CPtr) : M (PFileObj × Int) :=
  if (o.count : Int) = maxcount then .ok (o, ARG_ERR_MAXCOUNT)
  else match argval with
    | none => .ok ({ o with count := o.count + 1 }, 0)
    | some a => do
      let filename ← storeAt o.filename o.count a
      let b ← argBasenamePtr m a
      let basename ← storeAt o.basename o.count b
      let x ← argExtensionPtr m b
      let extension ← storeAt o.extension o.count x
      .ok ({ count := o.count + 1, filename := filename, basename := basename, extension := extension }, 0)

/-- `arg_rex_scanfn`, arg_rex.c:130-162. -/
def rexScanPtr (m : Strs) (pattern : CStr) (icase : Bool) (maxcount : Int) (o : PStrObj) (argval : Option CPtr) :
    M (PStrObj × Int) :=
  if (o.count : Int) = maxcount then .ok (o, ARG_ERR_MAXCOUNT)
  else match argval with
    | none => .ok ({ o with count := o.count + 1 }, 0)
    | some a => do
      match ← rexCompile pattern with
      | none => .error (.ub "trex_match: NULL pointer dereference")
      | some nodes => do
        let text ← readStr m a
        if ← rexMatch nodes icase text then
          let sval ← storeAt o.sval o.count a
          .ok ({ count := o.count + 1, sval := sval }, 0)
        else .ok (o, ARG_ERR_REGNOMATCH)

/-- The scan function of an object that keeps no pointer: it reads the string.  (e.g. arg_int.c:139-208.) -/
def plainScanPtr {δ : Type} (m : Strs) (f : Obj δ → Option CStr → M (Obj δ × Int)) : ScanPtr (PObj δ)
  | .plain o, a => do
    let a ← match a with
      | none => .ok none
      | some p => do
        let s ← readStr m p
        .ok (some s)
    let (o, e) ← f o a
    .ok (.plain o, e)
  | _, _ => confused

/-- The header, with the functions of an `arg_str` (arg_str.c:107-146). -/
def strHdrPtr {δ : Type} (emsg : CPtr) (h : Hdr (Obj δ)) (o : PStrObj) : Hdr (PObj δ) :=
  { h with
    parent := .str o
    resetfn := some fun
      | .str o => do
        let o ← strResetPtr emsg o
        .ok (.str o)
      | _ => confused
    scanfn := none
    checkfn := some fun o => countCheck h.mincount o.count
    errorfn := none }

/-- The header, with the functions of an `arg_file` (arg_file.c:164-208). -/
def fileHdrPtr {δ : Type} (h : Hdr (Obj δ)) (o : PFileObj) : Hdr (PObj δ) :=
  { h with
    parent := .file o
    resetfn := some fun
      | .file o => .ok (.file { o with count := 0 })
      | _ => confused
    scanfn := none
    checkfn := some fun o => countCheck h.mincount o.count
    errorfn := none }

/-- The header, with the functions of an `arg_rex` (arg_rex.c:220-293). -/
def rexHdrPtr {δ : Type} (h : Hdr (Obj δ)) (o : PStrObj) : Hdr (PObj δ) :=
  { h with
    parent := .rex o
    resetfn := some fun
      | .rex o => .ok (.rex { o with count := 0 })
      | _ => confused
    scanfn := none
    checkfn := some fun o => countCheck h.mincount o.count
    errorfn := none }

/-- The header of an object that keeps no pointers.  (e.g. arg_int.c:257-289.) -/
def plainHdrPtr {δ : Type} (h : Hdr (Obj δ)) : Hdr (PObj δ) :=
  { h with
    parent := .plain h.parent
    resetfn := h.resetfn.map fun f => fun
      | .plain o => do
        let o ← f o
        .ok (.plain o)
      | _ => confused
    scanfn := none
    checkfn := h.checkfn.map fun f => fun
      | .plain o => f o
      | _ => 0
    errorfn := none }

/-- `p->fn(p, a)` for the scan functions of `arg_str`, `arg_file` and `arg_rex`. -/
def strFnPtr {δ : Type} (maxcount : Int) : ScanPtr (PObj δ)
  | .str o, a => do
    let (o, e) ← strScanPtr maxcount o a
    .ok (.str o, e)
  | _, _ => confused
/-- `p->fn(p, a)` for the scan function of `arg_file`, arg_file.c:101-122. -/
def fileFnPtr {δ : Type} (m : Strs) (maxcount : Int) : ScanPtr (PObj δ)
  | .file o, a => do
    let (o, e) ← fileScanPtr m maxcount o a
    .ok (.file o, e)
  | _, _ => confused
/-- `p->fn(p, a)` for the scan function of `arg_rex`, arg_rex.c:130-162. -/
def rexFnPtr {δ : Type} (m : Strs) (pattern : CStr) (icase : Bool) (maxcount : Int) : ScanPtr (PObj δ)
  | .rex o, a => do
    let (o, e) ← rexScanPtr m pattern icase maxcount o a
    .ok (.rex o, e)
  | _, _ => confused

end Argtable
