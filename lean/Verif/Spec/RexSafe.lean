import Verif.Base
/-!
# Patterns whose nodes never match the terminating NUL

A syntactic condition on patterns: no `.`, no negated class `[^...]`, no class escape that contains
NUL (`\A \W \S \D \X \P \c`), no word boundary `\b \B`, no escaped byte above 127, and no backslash
at the very end.
-/

namespace Argtable.Spec

/-- The characters that may follow a backslash. -/
def safeEscape (c : Char) : Bool := c.toNat < 128 && 0 < c.toNat && !(cs "AWSDXPcbB").contains c

/-- No element of the pattern can match the terminating NUL of the text. -/
def SafePat : CStr → Bool
  | [] => true
  | [c] => c != '.' && c != '\\'
  | c :: d :: p =>
    if c = '\\' then safeEscape d && SafePat p
    else if c = '.' then false
    else if c = '[' ∧ d = '^' then false
    else SafePat (d :: p)

end Argtable.Spec
