import Verif.Spec.Regex
/-!
# What an `arg_rex` does with a text, for every pattern

`Re.Matches` (Spec/Regex.lean) says which part of a text a pattern describes.  `arg_rex` does not search for a way to match:
it walks through the pattern once and never goes back.  `Re.Go` says where this walk leads, part by part:

* characters and classes take the character they stand at, the terminating NUL included, and may look beyond it;
* a repetition takes pieces as long as it finds one, but at most 65536 of them; it stops as soon as their number is
  allowed and the element that follows matches, unless that element may be empty; and it stops at the end of the text;
* of several alternatives, the first that matches is taken;
* within alternatives, a group without repetition does not look at what follows it.
-/

namespace Argtable.Spec

/-- What a part of a pattern does at some place: it reads beyond the NUL that ends the text, it does not match, or it
matches the text up to place `j`. -/
inductive Move where
  | beyond
  | no
  | upto (j : Nat)

/-- First one thing, then, from where it leads to, another. -/
def Move.next (m : Move) (f : Nat → Move) : Move :=
  match m with
  | .beyond => .beyond
  | .no => .no
  | .upto j => f j

/-- One thing or, if it does not match, another. -/
def Move.or (m : Move) (m' : Move) : Move :=
  match m with
  | .no => m'
  | m => m

/-- Nothing follows, or what follows is not looked at. -/
def nothing : Nat → Move := fun _ => .no

/-- The most pieces a repetition takes. -/
def Quant.most : Quant → Nat
  | .once => 1
  | .opt => 1
  | .exactly n => n
  | .between _ m => m
  | .raw lo hi => if upperBound lo hi = 65535 then 65536 else upperBound lo hi
  | _ => 65536

open Classical in
/-- Take a character with a property; the NUL that ends the text counts as a character. -/
noncomputable def take (text : CStr) (P : Char → Prop) (i : Nat) : Move :=
  if text.length < i then .beyond else if P (text[i]?.getD '\x00') then .upto (i + 1) else .no

open Classical in
/-- After `n` pieces: is their number allowed? -/
noncomputable def stopped (q : Quant) (n i : Nat) : Move := if q.Allows n then .upto i else .no

open Classical in
/-- A repetition that has taken `n` pieces and may take at most `k` more. -/
noncomputable def pieces (len : Nat) (q : Quant) (piece after : Nat → Move) : (k n i : Nat) → Move
  | 0, n, i => stopped q n i
  | k + 1, n, i =>
    match piece i with
    | .beyond => .beyond
    | .no => stopped q n i
    | .upto j =>
      match after j with
      | .beyond => .beyond
      | .no => if len ≤ j then stopped q (n + 1) j else pieces len q piece after k (n + 1) j
      | .upto _ => if q.Allows (n + 1) ∨ len ≤ j then stopped q (n + 1) j else pieces len q piece after k (n + 1) j

/-- An atom (`atom after i`) with a repetition, followed by `after`.  `inAlt`: within alternatives. -/
noncomputable def element (len : Nat) (atom : (Nat → Move) → Nat → Move) (q : Quant) (inAlt : Bool) (after : Nat → Move)
    (i : Nat) : Move :=
  if q = .once then atom (if inAlt then nothing else after) i
  else pieces len q (atom after) after q.most 0 i

open Classical in
mutual
/-- Where the pattern, followed by `after`, leads to from place `i`. -/
noncomputable def Re.Go (icase : Bool) (text : CStr) : Re → (inAlt : Bool) → (after : Nat → Move) → (i : Nat) → Move
  | .branch bol es, inAlt, after, i => if bol = true ∧ i ≠ 0 then .no else es.Go icase text inAlt after i
  | .alt bol es r, _, _, i =>
    (if bol = true ∧ i ≠ 0 then .no else es.Go icase text true nothing i).or (r.Go icase text true nothing i)
/-- Where the sequence leads to. -/
noncomputable def Elems.Go (icase : Bool) (text : CStr) : Elems → (inAlt : Bool) → (after : Nat → Move) → (i : Nat) → Move
  | .last a q, inAlt, after, i => element text.length (a.Go icase text) q inAlt after i
  | .more a q es, inAlt, after, i =>
    (element text.length (a.Go icase text) q inAlt (es.Head icase text) i).next (es.Go icase text inAlt after)
/-- The first element of the sequence, as seen by a repetition in front of it: it is ignored if it may be empty. -/
noncomputable def Elems.Head (icase : Bool) (text : CStr) : Elems → (i : Nat) → Move
  | .last a q, i => if q.Allows 0 then .no else element text.length (a.Go icase text) q false nothing i
  | .more a q es, i => if q.Allows 0 then .no else element text.length (a.Go icase text) q false (es.Head icase text) i
/-- Where the atom leads to.  `.` takes a place without looking at it. -/
noncomputable def Atom.Go (icase : Bool) (text : CStr) : Atom → (after : Nat → Move) → (i : Nat) → Move
  | .chr l, _, i => take text (fun c => SameLetter icase c l.char) i
  | .cls l, _, i => take text (InClass l) i
  | .any, _, i => .upto (i + 1)
  | .set neg first items, _, i => take text (fun c =>
      if neg then ¬ ∃ x ∈ first :: items, x.Has icase c else ∃ x ∈ first :: items, x.Has icase c) i
  | .eol, _, i => if i = text.length then .upto i else .no
  | .edge neg, _, i =>
    if text.length < i ∨ i = text.length ∧ BlankAt text (i - 1) then .beyond
    else if (if neg then ¬ Edge text i else Edge text i) then .upto i else .no
  | .group _ r, after, i => r.Go icase text false after i
end

/-- What becomes of the whole text. -/
noncomputable def Re.Walk (icase : Bool) (r : Re) (text : CStr) : Move := r.Go icase text false nothing 0

/-! ### Other ways to write a pattern -/

/-- `*`, `+`, `?` and `{n}` as `{0,}`, `{1,}`, `{0,1}` and `{n,n}`. -/
def Quant.long : Quant → Quant
  | .once => .once
  | .star => .atLeast 0
  | .plus => .atLeast 1
  | .opt => .between 0 1
  | .exactly n => .between n n
  | q => q

/-- A character without its quotes. -/
def Lit.bare (l : Lit) : Lit := .plain l.char

/-- An item of a class without quotes. -/
def SetItem.bare : SetItem → SetItem
  | .one l => .one l.bare
  | .cls l => .cls l
  | .range a b => .range a.bare b.bare

/-- The atom in a group that contains nothing else. -/
def Re.single : Re → Option Atom
  | .branch false (.last a .once) => some a
  | _ => none

mutual
/-- The pattern without everything that makes no difference to `arg_rex`: all groups are written `(?:…)`, groups of one
atom without parentheses, repetitions with numbers, characters without quotes.  (The result is a tree, not a pattern.) -/
def Re.plain : Re → Re
  | .branch bol es => .branch bol es.plain
  | .alt bol es r => .alt bol es.plain r.plain
/-- See `Re.plain`. -/
def Elems.plain : Elems → Elems
  | .last a q => .last a.plain q.long
  | .more a q es => .more a.plain q.long es.plain
/-- See `Re.plain`. -/
def Atom.plain : Atom → Atom
  | .chr l => .chr l.bare
  | .set neg first items => .set neg first.bare (items.map SetItem.bare)
  | .group _ r => r.plain.single.getD (.group false r.plain)
  | a => a
end

end Argtable.Spec
