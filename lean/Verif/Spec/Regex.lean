import Verif.Spec.Scan
import Verif.Spec.Rex
/-!
# Regular expressions: syntax and meaning

The patterns of `arg_rex` as syntax trees (`Re`), how a tree is written as a pattern (`text`), and which
part of a text it describes (`Matches`), without reference to the matching code.

`Re.Ok` says when a tree is written in a way that can be read back: a special character may stand for itself where its
special meaning makes no sense, such as `^` in the middle of a pattern or `-` at the start of a class.
-/

namespace Argtable.Spec

/-- A character as written in a pattern: itself, quoted by a backslash, or one of `\n \t \r \f \v`. -/
inductive Lit where
  | plain (c : Char)
  | quoted (c : Char)
  | ctl (l : Char)
deriving DecidableEq, Repr

/-- The control character written as a backslash and a letter. -/
def ctlChar (l : Char) : Char :=
  if l = 'n' then '\n' else if l = 't' then '\t' else if l = 'r' then '\r'
  else if l = 'f' then '\x0c' else '\x0b'

/-- The character meant. -/
def Lit.char : Lit → Char
  | .plain c => c
  | .quoted c => c
  | .ctl l => ctlChar l

/-- How it is written. -/
def Lit.text : Lit → CStr
  | .plain c => [c]
  | .quoted c => ['\\', c]
  | .ctl l => ['\\', l]

/-- An item of a class `[...]`: a character, a class escape, a range. -/
inductive SetItem where
  | one (l : Lit)
  | cls (l : Char)
  | range (a b : Lit)
deriving DecidableEq, Repr

/-- How an item is written. -/
def SetItem.text : SetItem → CStr
  | .one l => l.text
  | .cls l => ['\\', l]
  | .range a b => a.text ++ '-' :: b.text

/-- Repetitions: none, `*`, `+`, `?`, `{n}`, `{n,}`, `{n,m}`.  `raw lo hi` is a repetition with numbers in which all digits are
given, leading zeros included: `{lo}`, or `{lo,hi}` with `hi` possibly empty. -/
inductive Quant where
  | once | star | plus | opt
  | exactly (n : Nat)
  | atLeast (n : Nat)
  | between (n m : Nat)
  | raw (lo : CStr) (hi : Option CStr)
deriving DecidableEq, Repr

/-- How a repetition is written. -/
def Quant.text : Quant → CStr
  | .once => []
  | .star => cs "*"
  | .plus => cs "+"
  | .opt => cs "?"
  | .exactly n => '{' :: Nat.toDigits 10 n ++ cs "}"
  | .atLeast n => '{' :: Nat.toDigits 10 n ++ cs ",}"
  | .between n m => '{' :: Nat.toDigits 10 n ++ ',' :: Nat.toDigits 10 m ++ cs "}"
  | .raw lo none => '{' :: lo ++ cs "}"
  | .raw lo (some hi) => '{' :: lo ++ ',' :: hi ++ cs "}"

/-- The number written with these digits, modulo 2^16. -/
def bound (ds : CStr) : Nat := ds.foldl (fun n c => n * 10 + (c.toNat - 48)) 0 % 65536

/-- The upper bound of `raw lo hi`; 65535 stands for none. -/
def upperBound (lo : CStr) : Option CStr → Nat
  | none => bound lo
  | some [] => 65535
  | some hi => bound hi

/-- The numbers of repetitions allowed. -/
def Quant.Allows : Quant → Nat → Prop
  | .once, k => k = 1
  | .star, _ => True
  | .plus, k => 1 ≤ k
  | .opt, k => k ≤ 1
  | .exactly n, k => k = n
  | .atLeast n, k => n ≤ k
  | .between n m, k => n ≤ k ∧ k ≤ m
  | .raw lo hi, k => bound lo ≤ k ∧ (upperBound lo hi = 65535 ∨ k ≤ upperBound lo hi)

mutual
/-- A pattern: alternatives separated by `|`; each may start with `^` (`bol`). -/
inductive Re where
  | branch (bol : Bool) (es : Elems)
  | alt (bol : Bool) (es : Elems) (r : Re)
/-- A non-empty sequence of elements with repetitions. -/
inductive Elems where
  | last (a : Atom) (q : Quant)
  | more (a : Atom) (q : Quant) (es : Elems)
/-- A character, a class escape such as `\d`, `.`, a class `[...]` or `[^...]`, `$`, a word boundary `\b` or its
negation `\B`, a group `(...)` or `(?:...)`. -/
inductive Atom where
  | chr (l : Lit)
  | cls (l : Char)
  | any
  | set (neg : Bool) (first : SetItem) (items : List SetItem)
  | eol
  | edge (neg : Bool)
  | group (capture : Bool) (r : Re)
end

mutual
/-- How a pattern is written. -/
def Re.text : Re → CStr
  | .branch bol es => (if bol then cs "^" else []) ++ es.text
  | .alt bol es r => (if bol then cs "^" else []) ++ es.text ++ '|' :: r.text
/-- How a sequence is written. -/
def Elems.text : Elems → CStr
  | .last a q => a.text ++ q.text
  | .more a q es => a.text ++ q.text ++ es.text
/-- How an atom is written. -/
def Atom.text : Atom → CStr
  | .chr l => l.text
  | .cls l => ['\\', l]
  | .any => cs "."
  | .set neg first items =>
    '[' :: (if neg then cs "^" else []) ++ (first :: items).flatMap SetItem.text ++ cs "]"
  | .eol => cs "$"
  | .edge neg => if neg then cs "\\B" else cs "\\b"
  | .group capture r => (if capture then cs "(" else cs "(?:") ++ r.text ++ cs ")"
end

/-! ### Meaning -/

/-- The members of the class named by a letter. -/
def InClass (l c : Char) : Prop :=
  let n := c.toNat
  let upper := 65 ≤ n ∧ n ≤ 90
  let lower := 97 ≤ n ∧ n ≤ 122
  let digit := 48 ≤ n ∧ n ≤ 57
  match l with
  | 'a' => upper ∨ lower
  | 'A' => ¬ (upper ∨ lower)
  | 'w' => upper ∨ lower ∨ digit ∨ c = '_'
  | 'W' => ¬ (upper ∨ lower ∨ digit ∨ c = '_')
  | 's' => n = 32 ∨ 9 ≤ n ∧ n ≤ 13
  | 'S' => ¬ (n = 32 ∨ 9 ≤ n ∧ n ≤ 13)
  | 'd' => digit
  | 'D' => ¬ digit
  | 'x' => digit ∨ 65 ≤ n ∧ n ≤ 70 ∨ 97 ≤ n ∧ n ≤ 102
  | 'X' => ¬ (digit ∨ 65 ≤ n ∧ n ≤ 70 ∨ 97 ≤ n ∧ n ≤ 102)
  | 'c' => n < 32 ∨ n = 127
  | 'C' => ¬ (n < 32 ∨ n = 127)
  | 'p' => 33 ≤ n ∧ n ≤ 126 ∧ ¬ (upper ∨ lower ∨ digit)
  | 'P' => ¬ (33 ≤ n ∧ n ≤ 126 ∧ ¬ (upper ∨ lower ∨ digit))
  | 'l' => lower
  | 'u' => upper
  | _ => False

/-- The same character, or, ignoring case, the same letter. -/
def SameLetter (icase : Bool) (c d : Char) : Prop := if icase then toLower c = toLower d else c = d

/-- `c` lies between `a` and `b`.  A `char` has a sign: the bytes above 127 come before all others. -/
def Between (a b c : Char) : Prop := charInt a ≤ charInt c ∧ charInt c ≤ charInt b

/-- The members of an item of a class.  Ignoring case, a range stands for two: the ends in capital letters and the ends in
small letters.  (For the usual ranges this means that `c` or the other case of `c` lies in it: see `RangeOk` and
C53_range.) -/
def SetItem.Has (icase : Bool) : SetItem → Char → Prop
  | .one l, c => SameLetter icase c l.char
  | .cls l, c => InClass l c
  | .range a b, c =>
    if icase then Between (toUpper a.char) (toUpper b.char) c ∨ Between (toLower a.char) (toLower b.char) c
    else Between a.char b.char c

/-- `n` consecutive pieces described by `R`. -/
def Iter (R : Nat → Nat → Prop) : Nat → Nat → Nat → Prop
  | 0, i, j => i = j
  | n + 1, i, j => ∃ k, R i k ∧ Iter R n k j

/-- As many consecutive pieces as the repetition allows. -/
def Repeated (q : Quant) (R : Nat → Nat → Prop) (i j : Nat) : Prop := ∃ n, q.Allows n ∧ Iter R n i j

/-- One character with a property. -/
def OneChar (text : CStr) (P : Char → Prop) (i j : Nat) : Prop := ∃ c, text[i]? = some c ∧ P c ∧ j = i + 1

/-- Character `i` exists and is white space. -/
def BlankAt (text : CStr) (i : Nat) : Prop := ∃ c, text[i]? = some c ∧ InClass 's' c

/-- What `arg_rex` takes for a word boundary: the start of a text unless it starts with white space, the end of a text
unless it ends with white space, and any place where one of the *next two* characters is white space and the other is not.
(A usual word boundary lies between two such characters.) -/
def Edge (text : CStr) (i : Nat) : Prop :=
  (i = 0 ∧ ¬ BlankAt text 0) ∨ (i = text.length ∧ ¬ BlankAt text (i - 1)) ∨ (BlankAt text i ↔ ¬ BlankAt text (i + 1))

mutual
/-- The pattern describes the characters `i`, …, `j - 1` of the text. -/
def Re.Matches (icase : Bool) (text : CStr) : Re → Nat → Nat → Prop
  | .branch bol es, i, j => (bol = true → i = 0) ∧ es.Matches icase text i j
  | .alt bol es r, i, j => ((bol = true → i = 0) ∧ es.Matches icase text i j) ∨ r.Matches icase text i j
/-- The sequence describes this part of the text. -/
def Elems.Matches (icase : Bool) (text : CStr) : Elems → Nat → Nat → Prop
  | .last a q, i, j => Repeated q (a.Matches icase text) i j
  | .more a q es, i, j => ∃ k, Repeated q (a.Matches icase text) i k ∧ es.Matches icase text k j
/-- The atom describes this part of the text. -/
def Atom.Matches (icase : Bool) (text : CStr) : Atom → Nat → Nat → Prop
  | .chr l, i, j => OneChar text (fun c => SameLetter icase c l.char) i j
  | .cls l, i, j => OneChar text (InClass l) i j
  | .any, i, j => OneChar text (fun _ => True) i j
  | .set neg first items, i, j => OneChar text (fun c =>
      if neg then ¬ ∃ x ∈ first :: items, x.Has icase c else ∃ x ∈ first :: items, x.Has icase c) i j
  | .eol, i, j => i = j ∧ i = text.length
  | .edge neg, i, j => i = j ∧ if neg then ¬ Edge text i else Edge text i
  | .group _ r, i, j => r.Matches icase text i j
end

/-- The whole text is in the language of the pattern. -/
def Re.Accepts (icase : Bool) (r : Re) (text : CStr) : Prop := r.Matches icase text 0 text.length

/-! ### Well-formed trees -/

/-- The letters of class escapes. -/
def classLetters : CStr := cs "aAwWsSdDxXcCpPlu"

/-- Outside classes: printable ASCII other than `\\ $ . [ (` may stand for themselves, some of them only at certain places
(see `Opens` and `Continues`); all characters but NUL and the letters with a special meaning may be quoted. -/
def Lit.Ok : Lit → Prop
  | .plain c => 32 ≤ c.toNat ∧ c.toNat ≤ 126 ∧ c ∉ cs "\\$.[("
  | .quoted c => 0 < c.toNat ∧ c ∉ classLetters ∧ c ∉ cs "bBvntrf"
  | .ctl l => l ∈ cs "vntrf"

/-- Inside classes: printable ASCII other than `]` and the backslash may stand for themselves, `^` and `-` only at certain
places (see `Atom.Ok` and `Separate`). -/
def Lit.SetOk : Lit → Prop
  | .plain c => 32 ≤ c.toNat ∧ c.toNat ≤ 126 ∧ c ∉ cs "]\\"
  | .quoted c => 0 < c.toNat ∧ c ∉ classLetters ∧ c ∉ cs "vntrf"
  | .ctl l => l ∈ cs "vntrf"

/-- The end of a range: even `]` may stand for itself, and even the letters of class escapes may be quoted. -/
def Lit.EndOk : Lit → Prop
  | .plain c => 32 ≤ c.toNat ∧ c.toNat ≤ 126 ∧ c ≠ '\\'
  | .quoted c => 0 < c.toNat ∧ c ∉ cs "vntrf"
  | .ctl l => l ∈ cs "vntrf"

/-- Conditions on an item of a class. -/
def SetItem.Ok : SetItem → Prop
  | .one l => l.SetOk
  | .cls l => l ∈ classLetters
  | .range a b => a.SetOk ∧ b.EndOk

/-- `-` stands for itself only at the start of a class and after a range. -/
def Separate : List SetItem → Prop
  | x :: y :: l => ((∃ a b, x = .range a b) ∨ y.text.head? ≠ some '-') ∧ Separate (y :: l)
  | _ => True

/-- Numbers have at most nine digits; lower bounds are less than 2^15 and upper bounds less than 2^16 - 1. -/
def Quant.Ok : Quant → Prop
  | .exactly n => n < 32768
  | .atLeast n => n < 32768
  | .between n m => n < 32768 ∧ m < 65535
  | .raw lo hi => (lo ≠ [] ∧ lo.length ≤ 9 ∧ (∀ c ∈ lo, isDigit c = true) ∧ bound lo < 32768) ∧
      ∀ ds, hi = some ds → ds.length ≤ 9 ∧ ∀ c ∈ ds, isDigit c = true
  | _ => True

/-- At the start of an alternative, `^` has its special meaning. -/
def Opens (bol : Bool) (t : CStr) : Prop := bol = true ∨ t.head? ≠ some '^'

/-- What may follow an element in a sequence: not `|`, `)`, `*` or `+`, and `?` or `{` only after a repetition. -/
def Continues (q : Quant) (t : CStr) : Prop :=
  t.head? ∉ [some '|', some ')', some '*', some '+'] ∧ (q = .once → t.head? ∉ [some '?', some '{'])

mutual
/-- The pattern is well-formed. -/
def Re.Ok : Re → Prop
  | .branch bol es => es.Ok ∧ Opens bol es.text
  | .alt bol es r => es.Ok ∧ r.Ok ∧ Opens bol es.text
/-- The sequence is well-formed. -/
def Elems.Ok : Elems → Prop
  | .last a q => a.Ok ∧ q.Ok
  | .more a q es => a.Ok ∧ q.Ok ∧ es.Ok ∧ Continues q es.text
/-- The atom is well-formed. -/
def Atom.Ok : Atom → Prop
  | .chr l => l.Ok
  | .cls l => l ∈ classLetters
  | .any => True
  | .set neg first items => (∀ x ∈ first :: items, x.Ok) ∧ Opens neg first.text ∧ Separate (first :: items)
  | .eol => True
  | .edge _ => True
  | .group capture r => r.Ok ∧ (capture = true → r.text.head? ≠ some '?')
end

/-- The usual ranges: ignoring case, both ends are small letters, both are capital letters, or neither is a letter
and the range contains both cases of a letter or none. -/
def RangeOk (icase : Bool) (a b : Char) : Prop :=
  icase = false ∨ InClass 'l' a ∧ InClass 'l' b ∨ InClass 'u' a ∧ InClass 'u' b ∨
    ¬ InClass 'a' a ∧ ¬ InClass 'a' b ∧ ∀ c d, SameLetter true c d → Between a b c → Between a b d

/-! ### Patterns that compile

The compiler numbers the parts of a pattern from left to right, and it compares the character in which a range ends with the
number of its first character instead of that character.  So a range late in a long pattern may be taken for an invalid
one. -/

/-- The code of the first character of a written character. -/
def Lit.head : Lit → Nat
  | .plain c => c.toNat
  | _ => '\\'.toNat

/-- How many numbers an item of a class takes. -/
def SetItem.size : SetItem → Nat
  | .range _ _ => 2
  | _ => 1

/-- How many numbers the items of a class take. -/
def sizeItems : List SetItem → Nat
  | [] => 0
  | x :: l => x.size + sizeItems l

/-- How many numbers a repetition takes. -/
def Quant.size : Quant → Nat
  | .once => 0
  | _ => 1

mutual
/-- How many numbers a pattern takes: `^` and `|` take one. -/
def Re.size : Re → Nat
  | .branch bol es => bol.toNat + es.size
  | .alt bol es r => bol.toNat + es.size + 1 + r.size
/-- The same for a sequence. -/
def Elems.size : Elems → Nat
  | .last a q => a.size + q.size
  | .more a q es => a.size + q.size + es.size
/-- The same for an atom: a class and a group take one number themselves. -/
def Atom.size : Atom → Nat
  | .set _ first items => 1 + sizeItems (first :: items)
  | .group _ r => 1 + r.size
  | _ => 1
end

/-- The ranges among these items of a class, the first of which gets number `k`, compile: the number of a range is at most the
code of the character its end starts with. -/
def PlacedItems : (k : Nat) → List SetItem → Prop
  | _, [] => True
  | k, x :: l => (∀ a b, x = .range a b → k ≤ b.head) ∧ PlacedItems (k + x.size) l

mutual
/-- All ranges of a pattern that gets the numbers from `k` on compile. -/
def Re.Placed (k : Nat) : Re → Prop
  | .branch bol es => es.Placed (k + bol.toNat)
  | .alt bol es r => es.Placed (k + bol.toNat) ∧ r.Placed (k + bol.toNat + es.size + 1)
/-- The same for a sequence. -/
def Elems.Placed (k : Nat) : Elems → Prop
  | .last a _ => a.Placed k
  | .more a q es => a.Placed k ∧ es.Placed (k + a.size + q.size)
/-- The same for an atom. -/
def Atom.Placed (k : Nat) : Atom → Prop
  | .set _ first items => PlacedItems (k + 1) (first :: items)
  | .group _ r => r.Placed (k + 1)
  | _ => True
end

/-- The pattern compiles: the whole pattern has number 0. -/
def Re.Compiles (r : Re) : Prop := r.Placed 1

/-! A simple sufficient condition is that the pattern is short: see `C53_compiled`. -/

/-- The end of a range is written with a character code of at least `len - 2`. -/
def SetItem.Fits (len : Nat) : SetItem → Prop
  | .range _ b => len ≤ b.head + 2
  | _ => True

mutual
/-- No range of the pattern ends with a character code less than `len - 2`. -/
def Re.Fits (len : Nat) : Re → Prop
  | .branch _ es => es.Fits len
  | .alt _ es r => es.Fits len ∧ r.Fits len
/-- The same for a sequence. -/
def Elems.Fits (len : Nat) : Elems → Prop
  | .last a _ => a.Fits len
  | .more a _ es => a.Fits len ∧ es.Fits len
/-- The same for an atom. -/
def Atom.Fits (len : Nat) : Atom → Prop
  | .set _ first items => ∀ x ∈ first :: items, x.Fits len
  | .group _ r => r.Fits len
  | _ => True
end

end Argtable.Spec
