import Verif.Model.Getopt
/-!
# Argument tables, error records, option tables (argtable3.h, argtable3.c:60-233)
-/

namespace Argtable

/-- `struct arg_hdr`, argtable3.h:104-118, together with the object `parent` it is embedded in
(`σ` is the type of the value part of the `arg_xxx` structs).  The function pointers are kept as
fields, as in C; NULL is `none`.  The `flag` bits are Booleans; the bit `ARG_TERMINATOR` is
represented by the position in `Table`.  `resetfn` and `scanfn` may fault. -/
structure Hdr (σ : Type) where
  hasValue : Bool
  hasOptValue : Bool
  shortopts : Option CStr
  longopts : Option CStr
  datatype : Option CStr
  glossary : Option CStr
  mincount : Int
  maxcount : Int
  parent : σ
  resetfn : Option (σ → M σ)
  scanfn : Option (σ → Option CStr → M (σ × Int))
  checkfn : Option (σ → Int)
  /-- `errorfn(parent, ds, error, argval, progname)`: the text it appends to `ds` -/
  errorfn : Option (σ → Int → Option CStr → CStr → M CStr)

/-- The object recorded as `parent` of an error: the table entry with the given index, or the
`arg_end` itself. -/
inductive Parent where
  | entry (i : Nat)
  | endt
deriving DecidableEq, Repr

/-- One slot of the parallel arrays `error[]`, `parent[]`, `argval[]` of `struct arg_end`. -/
structure ErrRec where
  error : Int
  parent : Parent
  argval : Option CStr
deriving DecidableEq, Repr

/-- `struct arg_end`, argtable3.h:198-204: `maxcount` is `hdr.maxcount`, `slots` are the allocated
array cells. -/
structure EndTbl where
  maxcount : Int
  slots : List ErrRec
  count : Nat
deriving DecidableEq, Repr

/-- An argument table: the entries before the terminator, and the terminating `arg_end`.
Simplification: the entries are distinct objects (no pointer occurs twice in the table). -/
structure Table (σ : Type) where
  entries : List (Hdr σ)
  fin : EndTbl

/-- `enum { ARG_ELIMIT = 1, ARG_EMALLOC, ARG_ENOMATCH, ARG_ELONGOPT, ARG_EMISSARG }`,
argtable3.h:193. -/
def ARG_ELIMIT : Int := 1
/-- argtable3.h:193. -/
def ARG_EMALLOC : Int := 2
/-- argtable3.h:193. -/
def ARG_ENOMATCH : Int := 3
/-- argtable3.h:193. -/
def ARG_ELONGOPT : Int := 4
/-- argtable3.h:193. -/
def ARG_EMISSARG : Int := 5

/-- `arg_register_error`, argtable3.c:60-72. -/
def registerError (e : EndTbl) (parent : Parent) (error : Int) (argval : Option CStr) :
    M EndTbl :=
  if (e.count : Int) < e.maxcount then
    if e.count < e.slots.length then
      .ok { e with slots := e.slots.set e.count ⟨error, parent, argval⟩, count := e.count + 1 }
    else .error (.ub "arg_register_error: index out of range")
  else
    if 0 ≤ e.maxcount - 1 ∧ e.maxcount - 1 < e.slots.length then
      .ok { e with slots := e.slots.set (e.maxcount - 1).toNat ⟨ARG_ELIMIT, .endt, none⟩ }
    else .error (.ub "arg_register_error: index out of range")

/-- `find_shortoption`, argtable3.c:78-85, from table index `i` on. -/
def findShortoption {σ : Type} (c : Char) : List (Hdr σ) → (i : Nat) → Option Nat
  | [], _ => none
  | h :: t, i =>
    match h.shortopts with
    | some so => if (strchr so c).isSome then some i else findShortoption c t (i + 1)
    | none => findShortoption c t (i + 1)

theorem strchr_length {s r : CStr} {c : Char} (h : strchr s c = some r) :
    r.length ≤ s.length := by
  induction s with
  | nil => simp [strchr] at h
  | cons d t ih =>
    simp only [strchr] at h
    split at h
    · cases h; exact Nat.le_refl _
    · exact Nat.le_succ_of_le (ih h)

/-- Counting the long options of one entry, argtable3.c:135-138.  For the empty string the expression
`longopts + 1` points behind the terminating NUL, and `strchr` reads out of bounds. -/
def countLongopts : CStr → M Nat
  | [] => .error (.ub "alloc_longoptions: strchr past the end of an empty string")
  | _ :: t =>
    match h : strchr t ',' with
    | none => .ok 1
    | some r => do
      let n ← countLongopts r
      .ok (n + 1)
termination_by s => s.length
decreasing_by
  have := strchr_length h
  simp only [List.length_cons]; omega

/-- The first pass over the table, argtable3.c:131-139: `(noptions, longoptlen)`.  The terminating
entry has no long options and contributes one byte. -/
def countPass {σ : Type} : List (Hdr σ) → (noptions longoptlen : Nat) → M (Nat × Nat)
  | [], n, l => .ok (n, l + 1)
  | h :: t, n, l =>
    match h.longopts with
    | none => countPass t n (l + 1)
    | some s => do
      let k ← countLongopts s
      countPass t (n + k) (l + s.length + 1)

/-- The names copied from one `longopts` string, argtable3.c:155-164. -/
def splitNames (s : CStr) : List CStr :=
  if h : s = [] then []
  else
    s.takeWhile (· != ',') :: splitNames ((s.dropWhile (· != ',')).tail)
termination_by s.length
decreasing_by
  have h1 : (s.dropWhile (· != ',')).length ≤ s.length := (List.dropWhile_sublist _).length_le
  have h2 : 0 < s.length := List.length_pos_iff.2 h
  cases hd : s.dropWhile (· != ',') with
  | nil => simp; omega
  | cons a b => rw [hd] at h1; simp at h1 ⊢; omega

/-- `has_arg`, argtable3.c:169-174. -/
def hasArgOf {σ : Type} (h : Hdr σ) : Nat :=
  if h.hasOptValue then 2 else if h.hasValue then 1 else 0

/-- The names stored for one entry; none if `longopts` is NULL (argtable3.c:153-155). -/
def entryNames {σ : Type} (h : Hdr σ) : List CStr :=
  match h.longopts with
  | some s => splitNames s
  | none => []

/-- Storing the options of one entry, argtable3.c:155-177.  `opts` are the options stored so far,
`used` the bytes of the string store used so far; a write outside the `cap` option slots or the
`storeCap` bytes is a fault. -/
def storeNames (cap storeCap : Nat) (val hasArg : Nat) :
    List CStr → (opts : List LongOpt) → (used : Nat) → M (List LongOpt × Nat)
  | [], opts, used => .ok (opts, used)
  | nm :: t, opts, used =>
    if used + nm.length + 1 ≤ storeCap ∧ opts.length < cap then
      storeNames cap storeCap val hasArg t (opts ++ [⟨nm, hasArg, true, val⟩])
        (used + nm.length + 1)
    else .error (.ub "alloc_longoptions: heap overflow")

/-- The second pass over the table, argtable3.c:152-178. -/
def fillPass {σ : Type} (cap storeCap : Nat) :
    List (Hdr σ) → (tabindex : Nat) → (opts : List LongOpt) → (used : Nat) → M (List LongOpt)
  | [], _, opts, _ =>
    -- argtable3.c:180-183: terminating zero entry
    if opts.length < cap then .ok opts else .error (.ub "alloc_longoptions: heap overflow")
  | h :: t, i, opts, used => do
    let (opts, used) ← storeNames cap storeCap i (hasArgOf h) (entryNames h) opts used
    fillPass cap storeCap t (i + 1) opts used

/-- `alloc_longoptions`, argtable3.c:112-187. -/
def allocLongoptions {σ : Type} (entries : List (Hdr σ)) : M (List LongOpt) := do
  let (noptions, longoptlen) ← countPass entries 1 0
  fillPass noptions longoptlen entries 0 [] 0

/-- The characters stored for one entry, argtable3.c:212-218. -/
def shortChars {σ : Type} (h : Hdr σ) : CStr :=
  (h.shortopts.getD []).flatMap fun c =>
    c :: ((if h.hasValue then [':'] else []) ++ (if h.hasOptValue then [':'] else []))

/-- `alloc_shortoptions`, argtable3.c:189-225; the buffer has `2 + 3·Σ strlen(shortopts)` bytes. -/
def allocShortoptions {σ : Type} (entries : List (Hdr σ)) : M CStr :=
  let len := entries.foldl (fun n h => n + 3 * (h.shortopts.getD []).length) 2
  let res := ':' :: entries.flatMap shortChars
  if res.length + 1 ≤ len then .ok res else .error (.ub "alloc_shortoptions: heap overflow")

end Argtable
