import Verif.Spec.Regex
/-!
# Deterministic patterns

Patterns for which the matcher, which never goes back, decides membership: at every point at most one way to
go on agrees with the next character.
-/

namespace Argtable.Spec

/-! ### Patterns that do not describe the NUL character -/

/-- The item does not contain NUL. -/
def SetItem.Spare : SetItem → Prop
  | .one _ => True
  | .cls l => ¬ InClass l '\x00'
  | .range a _ => a.char.toNat < 128

mutual
/-- No part of the pattern describes the NUL that ends a C string: no `.`, no `[^...]`, none of the class
escapes `\A \W \S \D \X \P \c`, no range that starts with a byte above 127; nor is there a word boundary, which looks at the next character but one. -/
def Re.Spare : Re → Prop
  | .branch _ es => es.Spare
  | .alt _ es r => es.Spare ∧ r.Spare
/-- The same for a sequence. -/
def Elems.Spare : Elems → Prop
  | .last a _ => a.Spare
  | .more a _ es => a.Spare ∧ es.Spare
/-- The same for an atom. -/
def Atom.Spare : Atom → Prop
  | .chr _ => True
  | .cls l => ¬ InClass l '\x00'
  | .any => False
  | .set neg first items => neg = false ∧ ∀ x ∈ first :: items, x.Spare
  | .eol => True
  | .edge _ => False
  | .group _ r => r.Spare
end

/-! ### First characters -/

mutual
/-- A text described by the pattern may start with `c`. -/
def Re.First (icase : Bool) : Re → Char → Prop
  | .branch _ es, c => es.First icase c
  | .alt _ es r, c => es.First icase c ∨ r.First icase c
/-- A text described by the sequence may start with `c`. -/
def Elems.First (icase : Bool) : Elems → Char → Prop
  | .last a _, c => a.First icase c
  | .more a q es, c => a.First icase c ∨ q.Allows 0 ∧ es.First icase c
/-- A text described by the atom may start with `c`. -/
def Atom.First (icase : Bool) : Atom → Char → Prop
  | .chr l, c => SameLetter icase c l.char
  | .cls l, c => InClass l c
  | .any, _ => True
  | .set neg first items, c =>
      if neg then ¬ ∃ x ∈ first :: items, x.Has icase c else ∃ x ∈ first :: items, x.Has icase c
  | .eol, _ => False
  | .edge _, _ => False
  | .group _ r, c => r.First icase c
end

mutual
/-- The pattern does not describe the empty text. -/
def Re.Eats : Re → Prop
  | .branch _ es => es.Eats
  | .alt _ es r => es.Eats ∧ r.Eats
/-- The sequence does not describe the empty text. -/
def Elems.Eats : Elems → Prop
  | .last a q => ¬ q.Allows 0 ∧ a.Eats
  | .more a q es => (¬ q.Allows 0 ∧ a.Eats) ∨ es.Eats
/-- The atom does not describe the empty text. -/
def Atom.Eats : Atom → Prop
  | .eol => False
  | .edge _ => False
  | .group _ r => r.Eats
  | _ => True
end

/-! ### Determinism -/

/-- The element `a` with the repetition `q`, before something that starts with a character in `F`: repeated
atoms are not empty, and unless the number of repetitions is fixed, the next character tells whether to
repeat or to go on. -/
def ElemDet (first : Char → Prop) (eats : Prop) (det : (Char → Prop) → Prop) (q : Quant) (F : Char → Prop) : Prop :=
  match q with
  | .once => det F
  | .exactly _ => eats ∧ det (fun c => first c ∨ F c)
  | _ => eats ∧ det (fun c => first c ∨ F c) ∧ ∀ c, ¬ (first c ∧ F c)

mutual
/-- The pattern is deterministic before something that starts with a character in `F`: alternatives differ in
their first character. -/
def Re.Det (icase : Bool) : Re → (F : Char → Prop) → Prop
  | .branch _ es, F => es.Det icase F
  | .alt _ es r, F => es.Eats ∧ es.Det icase F ∧ r.Det icase F ∧
      ∀ c, ¬ (es.First icase c ∧ (r.First icase c ∨ ¬ r.Eats ∧ F c))
/-- The same for a sequence. -/
def Elems.Det (icase : Bool) : Elems → (F : Char → Prop) → Prop
  | .last a q, F => ElemDet (a.First icase) a.Eats (a.Det icase) q F
  | .more a q es, F => ElemDet (a.First icase) a.Eats (a.Det icase) q (fun c => es.First icase c ∨ ¬ es.Eats ∧ F c) ∧
      es.Det icase F
/-- The same for an atom; groups are not empty, and word boundaries are excluded. -/
def Atom.Det (icase : Bool) : Atom → (F : Char → Prop) → Prop
  | .group _ r, F => r.Eats ∧ r.Det icase F
  | .edge _, _ => False
  | _, _ => True
end

end Argtable.Spec
