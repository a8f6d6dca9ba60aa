import Verif.Base
/-!
# Value types: arg_lit, arg_int, arg_dbl, arg_str, arg_file

Each `arg_xxx` struct is modelled by its value part (count and value arrays); the header fields the
functions read (`hdr.maxcount`, `hdr.mincount`) are parameters.  Array cells that the constructor does
not initialise hold `none`.  A store outside an array is a fault.
-/

namespace Argtable

/-- `enum { ARG_ERR_MINCOUNT = 1, ... }`, argtable3_private.h:62. -/
def ARG_ERR_MINCOUNT : Int := 1
/-- argtable3_private.h:62. -/
def ARG_ERR_MAXCOUNT : Int := 2
/-- argtable3_private.h:62. -/
def ARG_ERR_BADINT : Int := 3
/-- argtable3_private.h:62. -/
def ARG_ERR_OVERFLOW : Int := 4
/-- argtable3_private.h:62. -/
def ARG_ERR_BADDOUBLE : Int := 5
/-- argtable3_private.h:62. -/
def ARG_ERR_BADDATE : Int := 6
/-- argtable3_private.h:62. -/
def ARG_ERR_REGNOMATCH : Int := 7

/-- The C array store `a[i] = v`.  (as in `parent->ival[parent->count++] = …`, arg_int.c:203.) -/
def storeAt {α : Type} (a : List α) (i : Nat) (v : α) : M (List α) :=
  if i < a.length then .ok (a.set i v) else .error (.ub "array index out of range")

/-- All check functions, e.g. arg_int.c:210-214. -/
def countCheck (mincount : Int) (count : Nat) : Int :=
  if (count : Int) < mincount then ARG_ERR_MINCOUNT else 0

/-! ## arg_lit -/

/-- `arg_lit_scanfn`, arg_lit.c:45-54; the state is `count`. -/
def litScan (maxcount : Int) (count : Nat) : Nat × Int :=
  if (count : Int) < maxcount then (count + 1, 0) else (count, ARG_ERR_MAXCOUNT)

/-! ## strtol and arg_int -/

/-- `INT_MAX`, `INT_MIN` for 32-bit `int`; `LONG_MAX`, `LONG_MIN` for 64-bit `long`.  (arg_int.c:175-197.) -/
def INT_MAX : Int := 2147483647
/-- 32-bit `int`, arg_int.c:175-197. -/
def INT_MIN : Int := -2147483648
/-- 64-bit `long`, used by `strtol`, arg_int.c:99 and 164. -/
def LONG_MAX : Int := 9223372036854775807
/-- 64-bit `long`, used by `strtol`, arg_int.c:99 and 164. -/
def LONG_MIN : Int := -9223372036854775808

/-- The value of a digit or letter as used by `strtol` (C11 7.22.1.4). -/
def digitVal (c : Char) : Option Nat :=
  if '0' ≤ c ∧ c ≤ '9' then some (c.toNat - 48)
  else if 'a' ≤ c ∧ c ≤ 'z' then some (c.toNat - 87)
  else if 'A' ≤ c ∧ c ≤ 'Z' then some (c.toNat - 55)
  else none

/-- Is `c` a digit in the given base?  (a part of `strtol`, called in arg_int.c:99 and 164.) -/
def isBaseDigit (base : Nat) (c : Char) : Bool :=
  match digitVal c with
  | some v => v < base
  | none => false

/-- The number denoted by a string of digits.  (a part of `strtol`, called in arg_int.c:99 and 164.) -/
def digitsVal (base : Nat) (s : CStr) : Nat :=
  s.foldl (fun v c => v * base + (digitVal c).getD 0) 0

/-- Clamping to the range of `long` (`strtol` returns `LONG_MAX`/`LONG_MIN` on overflow).
(called in arg_int.c:99 and 164.) -/
def clampLong (v : Int) : Int := if v > LONG_MAX then LONG_MAX else if v < LONG_MIN then LONG_MIN else v

/-- Reading an optional sign: the factor and the rest.  Used for arg_int.c:69-82 and in `strtol`. -/
def scanSign : CStr → Int × CStr
  | '+' :: s => (1, s)
  | '-' :: s => (-1, s)
  | s => (1, s)

/-- The optional "0x" prefix that `strtol` accepts for base 16; it is a prefix only if a hexadecimal
digit follows.  (called in arg_int.c:99.) -/
def skipHexPrefix (base : Nat) (s : CStr) : CStr :=
  match s with
  | '0' :: x :: d :: t =>
    if base = 16 ∧ (x = 'x' ∨ x = 'X') ∧ isBaseDigit 16 d then d :: t else s
  | _ => s

/-- The C library function `strtol(s, &end, base)` for base 2, 8, 10 or 16 (C11 7.22.1.4), in the C
locale: the value and the rest `end` (which is `s` itself if no conversion was possible). -/
def strtol (s : CStr) (base : Nat) : Int × CStr :=
  let (sign, s1) := scanSign (s.dropWhile isSpace)
  let s2 := skipHexPrefix base s1
  let ds := s2.takeWhile (isBaseDigit base)
  if ds = [] then (0, s)
  else (clampLong (sign * digitsVal base ds), s2.dropWhile (isBaseDigit base))

/-- `strtol0X`, arg_int.c:58-108.  The product `s * val` overflows for `s = -1`, `val = LONG_MIN`. -/
def strtol0X (str : CStr) (X : Char) (base : Nat) : M (Int × CStr) :=
  let (s, ptr) := scanSign (str.dropWhile isSpace)
  match ptr with
  | '0' :: x :: ptr =>
    if toUpper x ≠ toUpper X then .ok (0, str)
    else
      let (val, e) := strtol ptr base
      if e = ptr then .ok (0, str)
      else if s * val > LONG_MAX then .error (.ub "strtol0X: signed overflow in s * val")
      else .ok (s * val, e)
  | _ => .ok (0, str)

/-- `detectsuffix`, arg_int.c:112-137. -/
def detectsuffix : (str suffix : CStr) → Bool
  | [], [] => true
  | c :: str, d :: suffix =>
    if toUpper c = toUpper d then detectsuffix str suffix else false
  | [], _ :: _ => false
  | str, [] => str.dropWhile isSpace = []

/-- The four conversion attempts of `arg_int_scanfn`, arg_int.c:154-173; `none` when all fail. -/
def intConvert (argval : CStr) : M (Option (Int × CStr)) := do
  let (val, e) ← strtol0X argval 'X' 16
  if e ≠ argval then .ok (some (val, e))
  else
    let (val, e) ← strtol0X argval 'O' 8
    if e ≠ argval then .ok (some (val, e))
    else
      let (val, e) ← strtol0X argval 'B' 2
      if e ≠ argval then .ok (some (val, e))
      else
        let (val, e) := strtol argval 10
        if e ≠ argval then .ok (some (val, e)) else .ok none

/-- The product `val *= k` in type `long`; overflow is undefined behaviour.  (arg_int.c:185, 191, 197.) -/
def mulLong (val k : Int) : M Int :=
  if val * k > LONG_MAX ∨ val * k < LONG_MIN then .error (.ub "signed overflow in val *= k")
  else .ok (val * k)

/-- One branch of the suffix handling, arg_int.c:183-198: a value that would not fit is an overflow. -/
def intScale (val k err : Int) : M (Int × Int) :=
  if val > INT_MAX.tdiv k ∨ val < INT_MIN.tdiv k then .ok (val, ARG_ERR_OVERFLOW)
  else do
    let val ← mulLong val k
    .ok (val, err)

/-- Range check and suffix handling of `arg_int_scanfn`, arg_int.c:177-201: value and error code. -/
def intSuffix (val : Int) (e : CStr) : M (Int × Int) :=
  let err : Int := if val > INT_MAX ∨ val < INT_MIN then ARG_ERR_OVERFLOW else 0
  if detectsuffix e (cs "KB") then intScale val 1024 err
  else if detectsuffix e (cs "MB") then intScale val 1048576 err
  else if detectsuffix e (cs "GB") then intScale val 1073741824 err
  else if ¬ detectsuffix e [] then .ok (val, ARG_ERR_BADINT)
  else .ok (val, err)

/-- The conversion `(int)val` from `long`: reduction modulo 2^32 (gcc).  (arg_int.c:203.) -/
def intOfLong (val : Int) : Int :=
  let r := val % 4294967296
  if r > INT_MAX then r - 4294967296 else r

/-- The value part of `struct arg_int`, argtable3.h:139-143. -/
structure IntObj where
  count : Nat
  ival : List (Option Int)
deriving DecidableEq, Repr

/-- `arg_int_scanfn`, arg_int.c:139-208. -/
def intScan (maxcount : Int) (o : IntObj) (argval : Option CStr) : M (IntObj × Int) :=
  if (o.count : Int) = maxcount then .ok (o, ARG_ERR_MAXCOUNT)
  else match argval with
    | none => .ok ({ o with count := o.count + 1 }, 0)
    | some a => do
      match ← intConvert a with
      | none => .ok (o, ARG_ERR_BADINT)
      | some (val, e) =>
        let (val, err) ← intSuffix val e
        if err = 0 then
          let ival ← storeAt o.ival o.count (some (intOfLong val))
          .ok ({ count := o.count + 1, ival := ival }, 0)
        else .ok (o, err)

/-! ## arg_dbl -/

/-- The value part of `struct arg_dbl`, argtable3.h:148-152.  `δ` is the type `double`. -/
structure DblObj (δ : Type) where
  count : Nat
  dval : List (Option δ)

/-- `arg_dbl_scanfn`, arg_dbl.c:45-72; `strtod` is the C library function, returning the value and the
unread rest. -/
def dblScan {δ : Type} (strtod : CStr → δ × CStr) (maxcount : Int) (o : DblObj δ)
    (argval : Option CStr) : M (DblObj δ × Int) :=
  if (o.count : Int) = maxcount then .ok (o, ARG_ERR_MAXCOUNT)
  else match argval with
    | none => .ok ({ o with count := o.count + 1 }, 0)
    | some a =>
      let (val, e) := strtod a
      if e = [] then do
        let dval ← storeAt o.dval o.count (some val)
        .ok ({ count := o.count + 1, dval := dval }, 0)
      else .ok (o, ARG_ERR_BADDOUBLE)

/-! ## arg_str -/

/-- The value part of `struct arg_str`, argtable3.h:157-161 (also of `struct arg_rex`, 166-170). -/
structure StrObj where
  count : Nat
  sval : List CStr
deriving DecidableEq, Repr

/-- The loop of `arg_str_resetfn`, arg_str.c:45-47: `sval[i] = ""` for the first `n` cells. -/
def strClear : (n : Nat) → List CStr → M (List CStr)
  | 0, s => .ok s
  | n + 1, s => do
    let s ← strClear n s
    storeAt s n []

/-- `arg_str_resetfn`, arg_str.c:41-49. -/
def strReset (o : StrObj) : M StrObj := do
  let s ← strClear o.count o.sval
  .ok { count := 0, sval := s }

/-- `arg_str_scanfn`, arg_str.c:51-68. -/
def strScan (maxcount : Int) (o : StrObj) (argval : Option CStr) : M (StrObj × Int) :=
  if (o.count : Int) = maxcount then .ok (o, ARG_ERR_MAXCOUNT)
  else match argval with
    | none => .ok ({ o with count := o.count + 1 }, 0)
    | some a => do
      let sval ← storeAt o.sval o.count a
      .ok ({ count := o.count + 1, sval := sval }, 0)

/-! ## arg_file -/

/-- `strrchr(s, c)` for `c ≠ 0`: the suffix starting at the last `c`, or NULL.  (arg_file.c:62-63 and 84.) -/
def strrchr : CStr → Char → Option CStr
  | [], _ => none
  | d :: t, c =>
    match strrchr t c with
    | some r => some r
    | none => if d = c then some (d :: t) else none

/-- `arg_basename`, arg_file.c:56-79, for a non-NULL file name; both separators are '/' (no WIN32). -/
def argBasename (filename : CStr) : CStr :=
  let result := match strrchr filename '/' with
    | some r => r.tail
    | none => filename
  if result = cs "." ∨ result = cs ".." then [] else result

/-- `arg_extension`, arg_file.c:82-99, for a non-NULL base name. -/
def argExtension (basename : CStr) : CStr :=
  let result := match strrchr basename '.' with
    | some r => r
    | none => []
  let result := if result = basename then [] else result
  if result.length = 1 then [] else result

/-- The value part of `struct arg_file`, argtable3.h:175-181. -/
structure FileObj where
  count : Nat
  filename : List CStr
  basename : List CStr
  extension : List CStr
deriving DecidableEq, Repr

/-- `arg_file_scanfn`, arg_file.c:101-122. -/
def fileScan (maxcount : Int) (o : FileObj) (argval : Option CStr) : M (FileObj × Int) :=
  if (o.count : Int) = maxcount then .ok (o, ARG_ERR_MAXCOUNT)
  else match argval with
    | none => .ok ({ o with count := o.count + 1 }, 0)
    | some a => do
      let filename ← storeAt o.filename o.count a
      let basename ← storeAt o.basename o.count (argBasename a)
      let extension ← storeAt o.extension o.count (argExtension (argBasename a))
      .ok ({ count := o.count + 1, filename := filename, basename := basename,
             extension := extension }, 0)

end Argtable
