/-!
# Base definitions: C strings, faults, the result monad

Shared vocabulary of the model.  See DESIGN.md for the modelling conventions.
-/

namespace Argtable

/-- A NUL-terminated C string, given by the characters before the NUL.  A `char*` pointing into a
string is modelled by the remaining suffix, so `[]` means "points at the NUL". -/
abbrev CStr := List Char

/-- Abnormal outcomes of the C program. -/
inductive Fault where
  /-- undefined behaviour / memory error -/
  | ub (why : String)
  /-- the step budget given to a potentially unbounded loop was exhausted -/
  | fuel
deriving DecidableEq, Repr

/-- Results of modelled C functions. -/
abbrev M := Except Fault

/-- A string literal as a C string. -/
abbrev cs (s : String) : CStr := s.toList

/-- Conversion `char → int` on a platform with signed `char` (x86 Linux), e.g.
`(int)*place` at arg_getopt_long.c:548.  Bytes 128..255 become negative.  The model's alphabet has
characters beyond 255 as well; those do not exist in C and are mapped to themselves, so that they
never collide with any other value. -/
def charInt (c : Char) : Int :=
  if c.toNat < 128 then c.toNat else if c.toNat < 256 then (c.toNat : Int) - 256 else c.toNat

/-- Conversion `int → char`, e.g. `(char)copt` at argtable3.c:310 (inverse of `charInt`). -/
def intChar (i : Int) : Char :=
  if i < 0 then Char.ofNat (i + 256).toNat else Char.ofNat i.toNat

/-- `strchr(s, c)` for `c ≠ 0`: the suffix starting at the first `c`, or NULL. -/
def strchr (s : CStr) (c : Char) : Option CStr :=
  match s with
  | [] => none
  | d :: t => if d = c then some (d :: t) else strchr t c

/-- `strncmp(a, b, n) == 0`. -/
def strncmpEq (a b : CStr) (n : Nat) : Bool := a.take n == b.take n

/-- `isspace` in the C locale. -/
def isSpace (c : Char) : Bool :=
  c == ' ' || c == '\t' || c == '\n' || c == '\x0b' || c == '\x0c' || c == '\r'

/-- `isdigit`. -/
def isDigit (c : Char) : Bool := '0' ≤ c && c ≤ '9'

/-- `tolower` in the C locale. -/
def toLower (c : Char) : Char :=
  if 'A' ≤ c && c ≤ 'Z' then Char.ofNat (c.toNat + 32) else c

/-- `toupper` in the C locale. -/
def toUpper (c : Char) : Char :=
  if 'a' ≤ c && c ≤ 'z' then Char.ofNat (c.toNat - 32) else c

end Argtable
