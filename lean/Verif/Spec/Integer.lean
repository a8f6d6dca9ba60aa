import Verif.Base
/-!
# Spelling of integers

What a text denotes as an integer, written without reference to the scanning code.
-/

namespace Argtable.Spec

/-- Only white space. -/
def White (s : CStr) : Prop := ∀ c ∈ s, isSpace c = true

instance (s : CStr) : Decidable (White s) := inferInstanceAs (Decidable (∀ c ∈ s, _))

/-- `c` is the digit with value `d`. -/
def DigitIs (c : Char) (d : Nat) : Prop :=
  (cs "0123456789abcdef")[d]? = some c ∨ (cs "0123456789ABCDEF")[d]? = some c

/-- A non-empty string of digits of a base, and its value in positional notation. -/
inductive Numeral (base : Nat) : CStr → Nat → Prop
  | one (c : Char) (d : Nat) : DigitIs c d → d < base → Numeral base [c] d
  | snoc (ds : CStr) (n : Nat) (c : Char) (d : Nat) : Numeral base ds n → DigitIs c d → d < base →
      Numeral base (ds ++ [c]) (n * base + d)

/-- An optional sign. -/
inductive Sign : CStr → Int → Prop
  | none : Sign [] 1
  | plus : Sign ['+'] 1
  | minus : Sign ['-'] (-1)

/-- The prefix of a notation and its base. -/
inductive Radix : CStr → Nat → Prop
  | dec : Radix [] 10
  | hex (x : Char) : x = 'x' ∨ x = 'X' → Radix ['0', x] 16
  | oct (x : Char) : x = 'o' ∨ x = 'O' → Radix ['0', x] 8
  | bin (x : Char) : x = 'b' ∨ x = 'B' → Radix ['0', x] 2

/-- An optional suffix, in upper or lower case, and its factor. -/
inductive Suffix : CStr → Int → Prop
  | none : Suffix [] 1
  | kb (s : CStr) : s.map toUpper = cs "KB" → Suffix s (2 ^ 10)
  | mb (s : CStr) : s.map toUpper = cs "MB" → Suffix s (2 ^ 20)
  | gb (s : CStr) : s.map toUpper = cs "GB" → Suffix s (2 ^ 30)

/-- The text `s` denotes the integer `n`: white space, sign, digits in one of the four notations, suffix,
white space. -/
inductive IntText : CStr → Int → Prop
  | mk (w sg pre ds sf w' : CStr) (sign : Int) (base m : Nat) (k : Int) :
      White w → Sign sg sign → Radix pre base → Numeral base ds m → Suffix sf k → White w' →
      IntText (w ++ sg ++ pre ++ ds ++ sf ++ w') (sign * m * k)

/-- What argtable3 accepts between a prefix `0x`, `0o` or `0b` and the digits, beside nothing: white space,
a second sign, and, for hexadecimal numbers, a second prefix `0x`. -/
inductive Inner (base : Nat) : CStr → Int → Prop
  | mk (w sg px : CStr) (sign : Int) : White w → Sign sg sign →
      (px = [] ∨ base = 16 ∧ (px = cs "0x" ∨ px = cs "0X")) → Inner base (w ++ sg ++ px) sign

/-- The texts argtable3 accepts as integers. -/
inductive LooseText : CStr → Int → Prop
  | plain (s : CStr) (n : Int) : IntText s n → LooseText s n
  | inner (w sg pre mid ds sf w' : CStr) (sign sign2 : Int) (base m : Nat) (k : Int) :
      White w → Sign sg sign → Radix pre base → pre ≠ [] → Inner base mid sign2 →
      Numeral base ds m → Suffix sf k → White w' →
      LooseText (w ++ sg ++ pre ++ mid ++ ds ++ sf ++ w') (sign * sign2 * m * k)

/-- A text starting with two minus signs around a prefix, and a number of at least 2^63. -/
inductive DoubleMinus : CStr → Prop
  | mk (w pre mid ds rest : CStr) (base m : Nat) :
      White w → Radix pre base → pre ≠ [] → Inner base mid (-1) → Numeral base ds m → 2 ^ 63 ≤ m →
      DoubleMinus (w ++ ['-'] ++ pre ++ mid ++ ds ++ rest)

/-- Every prefix `0x`, `0o`, `0b` in `s` is directly followed by a digit, and not by another `0x`. -/
def Tidy (s : CStr) : Prop :=
  ∀ a x r, s = a ++ '0' :: x :: r → x ∈ cs "xXoObB" →
    (∃ c t d, r = c :: t ∧ DigitIs c d) ∧ ∀ t, r ≠ '0' :: 'x' :: t ∧ r ≠ '0' :: 'X' :: t

/-- The range of `int`. -/
def FitsInt (n : Int) : Prop := -2 ^ 31 ≤ n ∧ n < 2 ^ 31

instance (n : Int) : Decidable (FitsInt n) := inferInstanceAs (Decidable (_ ∧ _))

end Argtable.Spec
