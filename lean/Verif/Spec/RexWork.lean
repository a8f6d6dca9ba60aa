import Verif.Spec.RegexDet
import Verif.Spec.RegexRun
/-!
# How much work a pattern can cause

`Re.tries n` multiplies, over all repetitions of a pattern, how often a repetition can be tried in a text of `n`
characters.  It decides, together with the length of the pattern, how much work an `arg_rex` does.
-/

namespace Argtable.Spec

open Classical in
/-- How often a repetition can be tried: as often as it may repeat, and if every repetition takes a character, at most once
for each character and once at the end. -/
noncomputable def Quant.turns (q : Quant) (eats : Prop) (n : Nat) : Nat :=
  if eats then min q.most (n + 1) else q.most

open Classical in
/-- The factor of one element: 1 without repetition. -/
noncomputable def Quant.tries (q : Quant) (eats : Prop) (n : Nat) : Nat :=
  if q = .once then 1 else q.turns eats n + 1

mutual
/-- The product over all repetitions of the pattern. -/
noncomputable def Re.tries (n : Nat) : Re → Nat
  | .branch _ es => es.tries n
  | .alt _ es r => es.tries n * r.tries n
/-- The same for a sequence. -/
noncomputable def Elems.tries (n : Nat) : Elems → Nat
  | .last a q => q.tries a.Eats n * a.tries n
  | .more a q es => q.tries a.Eats n * a.tries n * es.tries n
/-- The same for an atom. -/
noncomputable def Atom.tries (n : Nat) : Atom → Nat
  | .group _ r => r.tries n
  | _ => 1
end

mutual
/-- The number of repetitions in a pattern. -/
def Re.reps : Re → Nat
  | .branch _ es => es.reps
  | .alt _ es r => es.reps + r.reps
/-- The same for a sequence. -/
def Elems.reps : Elems → Nat
  | .last a q => q.size + a.reps
  | .more a q es => q.size + a.reps + es.reps
/-- The same for an atom. -/
def Atom.reps : Atom → Nat
  | .group _ r => r.reps
  | _ => 0
end

mutual
/-- Nothing that may be empty is repeated. -/
def Re.Brisk : Re → Prop
  | .branch _ es => es.Brisk
  | .alt _ es r => es.Brisk ∧ r.Brisk
/-- The same for a sequence. -/
def Elems.Brisk : Elems → Prop
  | .last a q => (q ≠ .once → a.Eats) ∧ a.Brisk
  | .more a q es => (q ≠ .once → a.Eats) ∧ a.Brisk ∧ es.Brisk
/-- The same for an atom. -/
def Atom.Brisk : Atom → Prop
  | .group _ r => r.Brisk
  | _ => True
end

/-- The characters with which repetitions are written. -/
def repeaters (pat : CStr) : Nat := (pat.filter fun c => c ∈ cs "*+?{").length

/-- `a*` in `k` pairs of parentheses, each with a star. -/
def starred : Nat → Re
  | 0 => .branch false (.last (.chr (.plain 'a')) .star)
  | k + 1 => .branch false (.last (.group true (starred k)) .star)

/-- `k` stars, none of which is inside another: `a*(a*(…(b)))`. -/
def stars : Nat → Re
  | 0 => .branch false (.last (.chr (.plain 'b')) .once)
  | k + 1 => .branch false (.more (.chr (.plain 'a')) .star (.last (.group true (stars k)) .once))

end Argtable.Spec
