import Verif.Spec.Integer
/-!
# Spelling of floating-point numbers

What `strtod` reads, as the C standard words it (C11 7.22.1.3), in the C locale; written without reference to code.
-/

namespace Argtable.Spec

/-- What a spelling denotes: a number, exactly and with its sign (zero has one, too), an infinity, or a NaN. -/
inductive FloatVal where
  | num (neg : Bool) (q : Rat)
  | inf (neg : Bool)
  | nan (neg : Bool) (seq : CStr)
deriving DecidableEq

/-- `m · b ^ e`. -/
def scaled (m b : Nat) : Int → Rat
  | .ofNat k => (m * b ^ k : Nat)
  | .negSucc k => mkRat m (b ^ (k + 1))

/-- A non-empty sequence of digits of the base, optionally containing a radix character: the digits read as one number,
and how many of them come after the radix character. -/
inductive Mantissa (base : Nat) : CStr → Nat → Nat → Prop
  | whole {ds : CStr} {m : Nat} : Numeral base ds m → Mantissa base ds m 0
  | point {ip fp : CStr} {m : Nat} : Numeral base (ip ++ fp) m → Mantissa base (ip ++ '.' :: fp) m fp.length

/-- An optional exponent part, introduced by one of the letters. -/
inductive Expo (letters : List Char) : CStr → Int → Prop
  | none : Expo letters [] 0
  | some {c : Char} {sg ds : CStr} {s : Int} {k : Nat} : c ∈ letters → Sign sg s → Numeral 10 ds k →
      Expo letters (c :: (sg ++ ds)) (s * k)

/-- A digit, a letter or an underscore. -/
def isNchar (c : Char) : Bool := ('0' ≤ c && c ≤ '9') || ('a' ≤ c && c ≤ 'z') || ('A' ≤ c && c ≤ 'Z') || c == '_'

/-- What may come after the sign. -/
inductive Unsigned : CStr → (Bool → FloatVal) → Prop
  | decimal {m ex : CStr} {n f : Nat} {e : Int} : Mantissa 10 m n f → Expo ['e', 'E'] ex e →
      Unsigned (m ++ ex) (fun neg => .num neg (scaled n 10 (e - f)))
  | hexadecimal {x : Char} {m ex : CStr} {n f : Nat} {e : Int} : x = 'x' ∨ x = 'X' → Mantissa 16 m n f →
      Expo ['p', 'P'] ex e → Unsigned ('0' :: x :: (m ++ ex)) (fun neg => .num neg (scaled n 2 (e - 4 * f)))
  | inf {t : CStr} : t.map toUpper = cs "INF" ∨ t.map toUpper = cs "INFINITY" → Unsigned t .inf
  | nan {t : CStr} : t.map toUpper = cs "NAN" → Unsigned t (fun neg => .nan neg [])
  | nanSeq {t ns : CStr} : t.map toUpper = cs "NAN" → (∀ c ∈ ns, isNchar c = true) →
      Unsigned (t ++ '(' :: (ns ++ [')'])) (fun neg => .nan neg ns)

/-- The expected form of the subject sequence, with its value. -/
inductive Subject : CStr → FloatVal → Prop
  | mk {sg t : CStr} {s : Int} {v : Bool → FloatVal} : Sign sg s → Unsigned t v → Subject (sg ++ t) (v (s < 0))

/-- A text that is a floating-point number after optional white space. -/
inductive FloatText : CStr → FloatVal → Prop
  | mk {w t : CStr} {v : FloatVal} : White w → Subject t v → FloatText (w ++ t) v

/-- `strtod` as in the C standard.  The subject sequence is the longest initial part of the string, after white space,
that is of the expected form; its value is returned, rounded by `round`, together with the rest of the string.  If there
is none, 0 is returned, together with the string. -/
def Strtod {δ : Type} (round : FloatVal → δ) (strtod : CStr → δ × CStr) : Prop :=
  ∀ s,
    (∀ w t rest v, s = w ++ t ++ rest → White w → Subject t v →
      (∀ t' rest' v', s = w ++ t' ++ rest' → Subject t' v' → t'.length ≤ t.length) → strtod s = (round v, rest)) ∧
    ((∀ w t rest v, s = w ++ t ++ rest → White w → ¬ Subject t v) → strtod s = (round (.num false 0), s))

end Argtable.Spec
