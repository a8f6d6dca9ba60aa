import Verif.Model.Values
import Verif.Spec.Double
/-!
# A `strtod`

argtable3 leaves the conversion of doubles to the C library; the model has `strtod` as a parameter (`Libc`).  This is one
that scans as a C library does, from left to right, with the rounding of the exact value as a parameter.  It serves to show
that the requirement of the C standard (`Spec.Strtod`) can be met, and to compute examples.
-/

namespace Argtable
open Spec

/-- Digits with an optional radix character: their value, the number of digits after the radix character, the rest.
(a part of `strtod` (C11 7.22.1.3), called in arg_dbl.c:62.) -/
def readMant (base : Nat) (t : CStr) : Option (Nat × Nat × CStr) :=
  let ip := t.takeWhile (isBaseDigit base)
  match t.dropWhile (isBaseDigit base) with
  | '.' :: r =>
    let fp := r.takeWhile (isBaseDigit base)
    if ip ++ fp = [] then none else some (digitsVal base (ip ++ fp), fp.length, r.dropWhile (isBaseDigit base))
  | r => if ip = [] then none else some (digitsVal base ip, 0, r)

/-- An optional exponent.  (a part of `strtod` (C11 7.22.1.3), called in arg_dbl.c:62.) -/
def readExpo (letters : List Char) (t : CStr) : Int × CStr :=
  match t with
  | [] => (0, t)
  | c :: r =>
    if c ∈ letters then
      let (s, r') := scanSign r
      let ds := r'.takeWhile (isBaseDigit 10)
      if ds = [] then (0, t) else (s * digitsVal 10 ds, r'.dropWhile (isBaseDigit 10))
    else (0, t)

/-- Digits and an exponent.  (a part of `strtod` (C11 7.22.1.3), called in arg_dbl.c:62.) -/
def readFloat (base : Nat) (letters : List Char) (value : Nat → Nat → Int → Bool → FloatVal) (t : CStr) :
    Option ((Bool → FloatVal) × CStr) :=
  match readMant base t with
  | none => none
  | some (n, f, r) => some (value n f (readExpo letters r).1, (readExpo letters r).2)

/-- A decimal number.  (a part of `strtod` (C11 7.22.1.3), called in arg_dbl.c:62.) -/
def readDecimal (t : CStr) : Option ((Bool → FloatVal) × CStr) :=
  readFloat 10 ['e', 'E'] (fun n f e neg => .num neg (scaled n 10 (e - f))) t

/-- A hexadecimal number, after the prefix.  (a part of `strtod` (C11 7.22.1.3), called in arg_dbl.c:62.) -/
def readHex (t : CStr) : Option ((Bool → FloatVal) × CStr) :=
  readFloat 16 ['p', 'P'] (fun n f e neg => .num neg (scaled n 2 (e - 4 * f))) t

/-- A number; `0x` is a prefix only if a hexadecimal number follows.
(a part of `strtod` (C11 7.22.1.3), called in arg_dbl.c:62.) -/
def readNumber (t : CStr) : Option ((Bool → FloatVal) × CStr) :=
  match t with
  | '0' :: x :: r =>
    if x = 'x' ∨ x = 'X' then
      match readHex r with
      | some p => some p
      | none => readDecimal t
    else readDecimal t
  | _ => readDecimal t

/-- A word in upper or lower case.  (a part of `strtod` (C11 7.22.1.3), called in arg_dbl.c:62.) -/
def readWord (w : CStr) (t : CStr) : Option CStr :=
  if (t.take w.length).map toUpper = w then some (t.drop w.length) else none

/-- What may follow `nan`.  (a part of `strtod` (C11 7.22.1.3), called in arg_dbl.c:62.) -/
def readNan (t : CStr) : (Bool → FloatVal) × CStr :=
  match t with
  | '(' :: r =>
    match r.dropWhile isNchar with
    | ')' :: r' => (fun neg => .nan neg (r.takeWhile isNchar), r')
    | _ => (fun neg => .nan neg [], t)
  | _ => (fun neg => .nan neg [], t)

/-- After the sign.  (a part of `strtod` (C11 7.22.1.3), called in arg_dbl.c:62.) -/
def readUnsigned (t : CStr) : Option ((Bool → FloatVal) × CStr) :=
  match readWord (cs "INFINITY") t with
  | some r => some (.inf, r)
  | none =>
    match readWord (cs "INF") t with
    | some r => some (.inf, r)
    | none =>
      match readWord (cs "NAN") t with
      | some r => some (readNan r)
      | none => readNumber t

/-- `strtod(s, &end)`: value and rest (C11 7.22.1.3). -/
def strtodC {δ : Type} (round : FloatVal → δ) (s : CStr) : δ × CStr :=
  let (sign, t) := scanSign (s.dropWhile isSpace)
  match readUnsigned t with
  | some (v, r) => (round (v (sign < 0)), r)
  | none => (round (.num false 0), s)

end Argtable
