import Verif.Spec.Integer
/-!
# Characters and the functions of `<ctype.h>`

Texts are sequences of bytes; a `char` is taken to be signed.
-/

namespace Argtable.Spec

/-- All the bytes are below 128. -/
def Ascii (s : CStr) : Prop := ∀ c ∈ s, c.toNat < 128

instance (s : CStr) : Decidable (Ascii s) := inferInstanceAs (Decidable (∀ c ∈ s, _))

/-- A byte that is a negative `char` and not EOF (-1, which is the byte 255): the functions of `<ctype.h>` are undefined for it. -/
def High (c : Char) : Prop := 128 ≤ c.toNat ∧ c.toNat ≠ 255

instance (c : Char) : Decidable (High c) := inferInstanceAs (Decidable (_ ∧ _))

/-- The fault: a function of `<ctype.h>` was called outside its domain. -/
def ctypeFault : Fault := .ub "ctype: argument is neither EOF nor an unsigned char"

/-- What a call gives is what it gives where the functions of `<ctype.h>` accept every `char`, unless it is undefined; and if the texts
are ASCII, it is not. -/
def UpToCtype {α : Type} (texts : List CStr) (x y : M α) : Prop :=
  (x = y ∨ x = .error ctypeFault) ∧ ((∀ t ∈ texts, Ascii t) → x = y)

/-- What follows the digits of an integer comes to such a byte before it is clear that it is no suffix: the byte comes first, or after
white space, or after a complete suffix and white space, or directly after the first letter of a suffix. -/
inductive Meets : CStr → Prop
  | letter (l b : Char) (r : CStr) : toUpper l ∈ cs "KMG" → High b → Meets (l :: b :: r)
  | suffix (sf w : CStr) (b : Char) (r : CStr) (k : Int) : Suffix sf k → White w → High b → Meets (sf ++ (w ++ b :: r))

/-- An argument of an integer option that comes to such a byte: as its first character after white space, directly after a leading zero,
or behind the number. -/
inductive CtypeInt : CStr → Prop
  | first (w : CStr) (b : Char) (r : CStr) : White w → High b → CtypeInt (w ++ b :: r)
  | zero (w sg : CStr) (sign : Int) (b : Char) (r : CStr) : White w → Sign sg sign → High b → CtypeInt (w ++ (sg ++ '0' :: b :: r))
  | decimal (w sg ds e : CStr) (sign : Int) (m : Nat) : White w → Sign sg sign → Numeral 10 ds m → Meets e →
      CtypeInt (w ++ (sg ++ (ds ++ e)))
  | based (w sg pre mid ds e : CStr) (sign sign2 : Int) (base m : Nat) : White w → Sign sg sign → Radix pre base → pre ≠ [] →
      Inner base mid sign2 → Numeral base ds m → Meets e → CtypeInt (w ++ (sg ++ (pre ++ (mid ++ (ds ++ e)))))

end Argtable.Spec
