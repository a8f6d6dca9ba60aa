import Verif.Spec.Scan
import Verif.Spec.Integer
import Verif.Spec.Date
import Verif.Spec.Rex
import Verif.Spec.Regex
import Verif.Spec.Operands
/-!
# What an entry holds after a command line

`Stores lc h args q`: the entry `h` has been given the arguments `args` by a command line and accepted them, and
its object is now `q`.  An argument is `none` if the option was given without a value.
-/

namespace Argtable.Spec

variable {δ : Type}

/-- The values that the options of a command line deliver to entry number `i`, in order. -/
def delivered : List Ev → (i : Nat) → List (Option CStr)
  | [], _ => []
  | .deliver j a :: evs, i => if j = i then a :: delivered evs i else delivered evs i
  | .fail _ _ :: evs, i => delivered evs i

/-- `Cells Val args c0 c`: the array `c0` has become `c`.  If the `j`-th argument has the text `a`, then cell `j`
has gone from `v0` to a value `v` with `Val v0 a v`; all other cells are as they were. -/
structure Cells {β : Type} (Val : β → CStr → β → Prop) (args : List (Option CStr)) (c0 c : List β) : Prop where
  room : args.length ≤ c0.length
  length : c.length = c0.length
  text : ∀ (j : Nat) (a : CStr), args[j]? = some (some a) → ∃ v0 v, c0[j]? = some v0 ∧ c[j]? = some v ∧ Val v0 a v
  other : ∀ j : Nat, (∀ a : CStr, args[j]? ≠ some (some a)) → c[j]? = c0[j]?

/-- The first `n` cells of an array of strings emptied. -/
def emptied (n : Nat) (c : List CStr) : List CStr := List.replicate n [] ++ c.drop n

/-- What is stored for the text `a` by an `arg_int`: the integer it denotes. -/
def IntVal (_ : Option Int) (a : CStr) (v : Option Int) : Prop := ∃ n, LooseText a n ∧ FitsInt n ∧ v = some n

/-- By an `arg_dbl`: what `strtod` makes of it, which reads all of it. -/
def DblVal (lc : Libc δ) (_ : Option δ) (a : CStr) (v : Option δ) : Prop :=
  (lc.strtod a).2 = [] ∧ v = some (lc.strtod a).1

/-- By an `arg_str`: the text itself. -/
def StrVal (_ : CStr) (a v : CStr) : Prop := v = a

/-- By an `arg_rex` with the pattern `pat`: the text itself, which belongs to the language of the pattern when the
pattern is the text of a syntax tree. -/
def RexVal (pat : CStr) (icase : Bool) (_ : CStr) (a v : CStr) : Prop :=
  v = a ∧ ∀ r : Re, r.text = pat → r.Ok → r.Accepts icase a

/-- By an `arg_date` with the format `fmt`: the cell with those fields set that the text, read in that format,
gives. -/
def DateVal (fmt : CStr) (t : Tm) (a : CStr) (t' : Tm) : Prop := Matches fmt a t t'

/-- What the entry `h` holds after accepting the arguments `args`, for each kind of entry. -/
inductive Stores (lc : Libc δ) (h : Hdr (Obj δ)) (args : List (Option CStr)) : Obj δ → Prop
  | lit {c : Nat} : h.parent = .lit c → Stores lc h args (.lit args.length)
  | int {o0 o : IntObj} : h.parent = .int o0 → o.count = args.length → Cells IntVal args o0.ival o.ival →
      Stores lc h args (.int o)
  | dbl {o0 o : DblObj δ} : h.parent = .dbl o0 → o.count = args.length → Cells (DblVal lc) args o0.dval o.dval →
      Stores lc h args (.dbl o)
  | str {o0 o : StrObj} : h.parent = .str o0 → o.count = args.length →
      Cells StrVal args (emptied o0.count o0.sval) o.sval → Stores lc h args (.str o)
  | file {o0 o : FileObj} : h.parent = .file o0 → o.count = args.length → Cells StrVal args o0.filename o.filename →
      Cells (fun _ a v => BaseName a v) args o0.basename o.basename →
      Cells (fun _ a v => ∃ b, BaseName a b ∧ ExtName b v) args o0.extension o.extension →
      Stores lc h args (.file o)
  | date {fmt : CStr} {o0 o : DateObj} : DateEntry lc fmt h o0 → o.count = args.length →
      Cells (DateVal fmt) args o0.tmval o.tmval → Stores lc h args (.date o)
  | rex {pat : CStr} {ic : Bool} {o0 o : StrObj} : RexEntry pat ic h o0 → o.count = args.length →
      Cells (RexVal pat ic) args o0.sval o.sval → Stores lc h args (.rex o)
  | rem : h.parent = .rem → Stores lc h args .rem

/-- The object of an entry that is given nothing: the count is 0 and the values are those the program has preset,
except that an `arg_str` forgets the values of an earlier command line. -/
def presets : Obj δ → Obj δ
  | .lit _ => .lit 0
  | .int o => .int ⟨0, o.ival⟩
  | .dbl o => .dbl ⟨0, o.dval⟩
  | .str o => .str ⟨0, emptied o.count o.sval⟩
  | .file o => .file ⟨0, o.filename, o.basename, o.extension⟩
  | .date o => .date ⟨0, o.tmval⟩
  | .rex o => .rex ⟨0, o.sval⟩
  | .rem => .rem

/-- `Spread es ops segs`: the operands `ops` are divided, in order, into one segment for each entry, and the
entries with an option name get none. -/
structure Spread {σ : Type} (es : List (Hdr σ)) (ops : List CStr) (segs : List (List CStr)) : Prop where
  length : segs.length = es.length
  all : segs.flatten = ops
  tagged : ∀ (i : Nat) (h : Hdr σ) (seg : List CStr), es[i]? = some h → segs[i]? = some seg →
    h.shortopts.isSome ∨ h.longopts.isSome → seg = []

end Argtable.Spec
