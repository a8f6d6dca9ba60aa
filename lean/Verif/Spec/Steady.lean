import Verif.Spec.Live
import Verif.Spec.Context
/-!
# Tables whose parses do not depend on earlier ones
-/

namespace Argtable.Spec

variable {δ : Type}

/-- The conversions that set the hour. -/
def setsHour (c : Char) : Bool := c ∈ ['H', 'k', 'I', 'l', 'T', 'X', 'c', 'R', 'r']

/-- In the date format `fmt`, every `%p` comes after a conversion that sets the hour (`hour`: one has
been seen already). -/
def steadyFmt : (fmt : CStr) → (hour : Bool) → Bool
  | [], _ => true
  | a :: fmt, hour =>
    if a ≠ '%' then steadyFmt fmt hour
    else match fmt with
      | [] => true
      | c :: fmt =>
        if c = 'E' ∨ c = 'O' then
          match fmt with
          | [] => true
          | c :: fmt => (c ≠ 'p' || hour) && steadyFmt fmt (hour || setsHour c)
        else (c ≠ 'p' || hour) && steadyFmt fmt (hour || setsHour c)

/-- Is this the object of an `arg_date`? -/
def isDate : Obj δ → Bool
  | .date _ => true
  | _ => false

/-- `h` is a live entry, and if it is an `arg_date` then its format is steady. -/
inductive Steady (lc : Libc δ) : Hdr (Obj δ) → Prop
  | other (h : Hdr (Obj δ)) : Live lc AnyPat h → isDate h.parent = false → Steady lc h
  | date (so lo fm dt : Option CStr) (mn mx : Int) (gl : Option CStr) (h : Hdr (Obj δ)) (ov : Bool)
      (o : DateObj) : argDaten lc so lo fm dt mn mx gl = .ok h →
      (o.count : Int) ≤ h.maxcount → (o.tmval.length : Int) = h.maxcount →
      steadyFmt (fm.getD (cs "%x")) false = true →
      Steady lc { h with hasOptValue := ov, parent := .date o }

/-- The two objects have the same count and the same values up to the count.  What is behind, and
rubbish in cells that were never written, is not compared. -/
def sameValues : Obj δ → Obj δ → Prop
  | .lit c, .lit c' => c = c'
  | .int o, .int o' => o.count = o'.count ∧ o.ival.take o.count = o'.ival.take o'.count
  | .dbl o, .dbl o' => o.count = o'.count ∧ o.dval.take o.count = o'.dval.take o'.count
  | .str o, .str o' => o.count = o'.count ∧ o.sval.take o.count = o'.sval.take o'.count
  | .file o, .file o' => o.count = o'.count ∧ o.filename.take o.count = o'.filename.take o'.count ∧
      o.basename.take o.count = o'.basename.take o'.count ∧
      o.extension.take o.count = o'.extension.take o'.count
  | .date o, .date o' => o.count = o'.count ∧ o.tmval.take o.count = o'.tmval.take o'.count
  | .rex o, .rex o' => o.count = o'.count ∧ o.sval.take o.count = o'.sval.take o'.count
  | .rem, .rem => True
  | _, _ => False

/-- The two entries have the same header, the same count, and (unless the value is optional) the same
values. -/
def SameEntry (h h' : Hdr (Obj δ)) : Prop :=
  SameHdr h h' ∧ h'.parent.count = h.parent.count ∧
  (h.hasOptValue = false → sameValues h.parent h'.parent)

/-- Two calls of `arg_parse` with the same return value, the same error records, and the same entries. -/
def SameOutcome (r r' : Nat × Table (Obj δ) × GState) : Prop :=
  r'.1 = r.1 ∧ r'.2.1.fin.slots.take r'.1 = r.2.1.fin.slots.take r.1 ∧
  List.Forall₂ SameEntry r.2.1.entries r'.2.1.entries

end Argtable.Spec
