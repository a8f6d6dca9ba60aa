import Verif.Model.Objects
/-!
# Giving arguments to an entry; file names
-/

namespace Argtable.Spec

variable {δ : Type}

/-- Giving the argument `a` to the entry `h`: the call `hdr.scanfn(hdr.parent, a)` that `arg_parse` makes.
The result is the entry's new value and the error code, 0 for success. -/
def give (h : Hdr (Obj δ)) (a : Option CStr) : M (Obj δ × Int) :=
  match h.scanfn with
  | some f => f h.parent a
  | none => .ok (h.parent, 0)

/-- Giving several arguments one after the other: the final value and the error codes. -/
def giveAll (h : Hdr (Obj δ)) : List CStr → M (Obj δ × List Int)
  | [] => .ok (h.parent, [])
  | a :: as => do
    let (p, c) ← give h (some a)
    let (p, cs) ← giveAll { h with parent := p } as
    .ok (p, c :: cs)

/-- `t` is what follows the last path separator of `f`. -/
inductive LastPart (f : CStr) : CStr → Prop
  | whole : '/' ∉ f → LastPart f f
  | after (p t : CStr) : f = p ++ '/' :: t → '/' ∉ t → LastPart f t

/-- `b` is the base name of the path `f`: the last part, unless that denotes a directory. -/
inductive BaseName (f : CStr) : CStr → Prop
  | part (t : CStr) : LastPart f t → t ≠ cs "." → t ≠ cs ".." → BaseName f t
  | dots (t : CStr) : LastPart f t → t = cs "." ∨ t = cs ".." → BaseName f []

/-- `e` is the extension of the base name `b`: the last dot and what follows, if there is something before
and after that dot. -/
inductive ExtName (b : CStr) : CStr → Prop
  | ext (a t : CStr) : b = a ++ '.' :: t → '.' ∉ t → a ≠ [] → t ≠ [] → ExtName b ('.' :: t)
  | none : (∀ a t, b = a ++ '.' :: t → '.' ∉ t → a = [] ∨ t = []) → ExtName b []

end Argtable.Spec
