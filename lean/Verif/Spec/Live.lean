import Verif.Model.Objects
import Verif.Spec.RexSafe
/-!
# Table entries made by the public constructors

`Live lc R h`: `h` is a table entry that a public constructor returned, in any state it can have later:
the user may have set `ARG_HASOPTVALUE`, preset values and counts within the array, and parsed any
number of command lines.  Only the shape is fixed: the arrays are those the constructor allocated and
`count` does not exceed their length.  The patterns of regular expressions are in `R`.
-/

namespace Argtable.Spec

variable {δ : Type}

/-- What the constructors return, with any values in the objects that are consistent with `maxcount`; the patterns of `arg_rexn` satisfy `R`. -/
inductive Live (lc : Libc δ) (R : CStr → Prop) : Hdr (Obj δ) → Prop
  | lit (so lo : Option CStr) (mn mx : Int) (gl : Option CStr) (ov : Bool) (c : Nat) :
      c ≤ (foolproof mn mx).toNat →
      Live lc R { argLitn so lo mn mx gl with hasOptValue := ov, parent := .lit c }
  | int (so lo dt : Option CStr) (mn mx : Int) (gl : Option CStr) (h : Hdr (Obj δ)) (ov : Bool)
      (o : IntObj) : argIntn so lo dt mn mx gl = .ok h →
      (o.count : Int) ≤ h.maxcount → (o.ival.length : Int) = h.maxcount →
      Live lc R { h with hasOptValue := ov, parent := .int o }
  | dbl (addr : Nat) (so lo dt : Option CStr) (mn mx : Int) (gl : Option CStr) (h : Hdr (Obj δ))
      (ov : Bool) (o : DblObj δ) : argDbln lc addr so lo dt mn mx gl = .ok h →
      (o.count : Int) ≤ h.maxcount → (o.dval.length : Int) = h.maxcount →
      Live lc R { h with hasOptValue := ov, parent := .dbl o }
  | str (so lo dt : Option CStr) (mn mx : Int) (gl : Option CStr) (h : Hdr (Obj δ)) (ov : Bool)
      (o : StrObj) : argStrn so lo dt mn mx gl = .ok h →
      (o.count : Int) ≤ h.maxcount → (o.sval.length : Int) = h.maxcount →
      Live lc R { h with hasOptValue := ov, parent := .str o }
  | file (so lo dt : Option CStr) (mn mx : Int) (gl : Option CStr) (h : Hdr (Obj δ)) (ov : Bool)
      (o : FileObj) : argFilen so lo dt mn mx gl = .ok h →
      (o.count : Int) ≤ h.maxcount → (o.filename.length : Int) = h.maxcount →
      (o.basename.length : Int) = h.maxcount → (o.extension.length : Int) = h.maxcount →
      Live lc R { h with hasOptValue := ov, parent := .file o }
  | date (so lo fm dt : Option CStr) (mn mx : Int) (gl : Option CStr) (h : Hdr (Obj δ)) (ov : Bool)
      (o : DateObj) : argDaten lc so lo fm dt mn mx gl = .ok h →
      (o.count : Int) ≤ h.maxcount → (o.tmval.length : Int) = h.maxcount →
      Live lc R { h with hasOptValue := ov, parent := .date o }
  | rex (so lo : Option CStr) (pat : CStr) (dt : Option CStr) (mn mx : Int) (ic : Bool)
      (gl : Option CStr) (h : Hdr (Obj δ)) (ov : Bool) (o : StrObj) :
      argRexn so lo pat dt mn mx ic gl = .ok h → R pat →
      (o.count : Int) ≤ h.maxcount → (o.sval.length : Int) = h.maxcount →
      Live lc R { h with hasOptValue := ov, parent := .rex o }
  | rem (dt gl : Option CStr) : Live lc R (argRem dt gl)

/-- `h` has just been returned by a public constructor. -/
inductive Made (lc : Libc δ) (R : CStr → Prop) : Hdr (Obj δ) → Prop
  | lit (so lo : Option CStr) (mn mx : Int) (gl : Option CStr) : Made lc R (argLitn so lo mn mx gl)
  | int (so lo dt : Option CStr) (mn mx : Int) (gl : Option CStr) (h : Hdr (Obj δ)) :
      argIntn so lo dt mn mx gl = .ok h → Made lc R h
  | dbl (addr : Nat) (so lo dt : Option CStr) (mn mx : Int) (gl : Option CStr) (h : Hdr (Obj δ)) :
      argDbln lc addr so lo dt mn mx gl = .ok h → Made lc R h
  | str (so lo dt : Option CStr) (mn mx : Int) (gl : Option CStr) (h : Hdr (Obj δ)) :
      argStrn so lo dt mn mx gl = .ok h → Made lc R h
  | file (so lo dt : Option CStr) (mn mx : Int) (gl : Option CStr) (h : Hdr (Obj δ)) :
      argFilen so lo dt mn mx gl = .ok h → Made lc R h
  | date (so lo fm dt : Option CStr) (mn mx : Int) (gl : Option CStr) (h : Hdr (Obj δ)) :
      argDaten lc so lo fm dt mn mx gl = .ok h → Made lc R h
  | rex (so lo : Option CStr) (pat : CStr) (dt : Option CStr) (mn mx : Int) (ic : Bool)
      (gl : Option CStr) (h : Hdr (Obj δ)) : argRexn so lo pat dt mn mx ic gl = .ok h → R pat →
      Made lc R h
  | rem (dt gl : Option CStr) : Made lc R (argRem dt gl)

/-- Is this the object of an `arg_rem`, which has no count? -/
def isRem : Obj δ → Bool
  | .rem => true
  | _ => false

/-- One "missing" record for each entry with fewer values than `mincount`, in table order; entries
are numbered from `i`. -/
def missing : List (Hdr (Obj δ)) → (i : Nat) → List ErrRec
  | [], _ => []
  | h :: t, i =>
    if isRem h.parent = false ∧ (h.parent.count : Int) < h.mincount then
      ⟨ARG_ERR_MINCOUNT, .entry i, none⟩ :: missing t (i + 1)
    else missing t (i + 1)

/-- `e` is a "missing" record of a table entry. -/
def isMissing (e : ErrRec) : Prop := e.error = ARG_ERR_MINCOUNT ∧ ∃ i, e.parent = .entry i

/-- Any pattern. -/
def AnyPat (_ : CStr) : Prop := True

/-- A pattern that compiles and has no element that can match the terminating NUL. -/
def GoodPat (p : CStr) : Prop := SafePat p = true ∧ ∃ nodes, rexCompile p = .ok (some nodes)

/-- A value with at most one minus sign. -/
def OneMinus : Option CStr → Prop
  | none => True
  | some s => s.count '-' ≤ 1

/-- The undefined operations that scanning a value can perform: the signed overflow in `strtol0X`
(see C23), and for regular expressions the two of C34 and C35.  None of them is a write. -/
inductive Hazard : Fault → Prop
  | overflow : Hazard (.ub "strtol0X: signed overflow in s * val")
  | nullRegex : Hazard (.ub "trex_match: NULL pointer dereference")
  | pastText : Hazard (.ub "read past the end of the text")

end Argtable.Spec
