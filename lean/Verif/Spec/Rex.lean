import Verif.Spec.Live
import Verif.Spec.Date
/-!
# Regular-expression entries
-/

namespace Argtable.Spec

variable {δ : Type}

/-- `h` is an `arg_rex` entry for the pattern `pat` in any state: it was made by the constructor, and `o` is
its current content. -/
inductive RexEntry : (pat : CStr) → (icase : Bool) → Hdr (Obj δ) → StrObj → Prop
  | mk (so lo : Option CStr) (pat : CStr) (dt : Option CStr) (mn mx : Int) (ic : Bool) (gl : Option CStr)
      (h : Hdr (Obj δ)) (ov : Bool) (o : StrObj) : argRexn so lo pat dt mn mx ic gl = .ok h →
      (o.count : Int) ≤ h.maxcount → (o.sval.length : Int) = h.maxcount →
      RexEntry pat ic { h with hasOptValue := ov, parent := .rex o } o

/-- A character that stands for itself: printable and without a special meaning. -/
def Ordinary (c : Char) : Prop := 32 ≤ c.toNat ∧ c.toNat ≤ 126 ∧ c ∉ cs "\\^$.[(|)*+?{"

/-- Equal, or equal up to the case of letters. -/
def SameUpTo (icase : Bool) (a b : CStr) : Prop := if icase then SameText a b else a = b

end Argtable.Spec
