import Verif.Spec.Memory
import Verif.Spec.Stream
import Verif.Spec.Free
import Verif.Spec.WellFormed
import Verif.Spec.Context
import Verif.Spec.Print
import Verif.Model.Life
/-!
# Programs that use the library properly

`Permitted w op`: in the state `w` the program may do `op`.  The conditions are those that the documentation gives: the
parameters of the constructors make sense, and a table is not used after it was freed.  For a call of `arg_parse` the
command line must not lead to one of the undefined operations of C23, C34 and C35, for a call that prints the text must
be one that the printing functions handle (C44 - C48).

`History`: the states that such a program can reach.
-/

namespace Argtable.Spec

variable {δ : Type}

/-- The strings, the counts and the pattern make sense. -/
def Maker.Sound : Maker → Prop
  | .lit so lo _ _ gl => CText so ∧ CText lo ∧ CText gl
  | .int so lo dt mn mx gl => CText so ∧ CText lo ∧ CText dt ∧ CText gl ∧ 0 ≤ max mn mx
  | .dbl so lo dt mn mx gl => CText so ∧ CText lo ∧ CText dt ∧ CText gl ∧ 0 ≤ max mn mx
  | .str so lo dt mn mx gl => CText so ∧ CText lo ∧ CText dt ∧ CText gl ∧ 0 ≤ max mn mx
  | .file so lo dt mn mx gl => CText so ∧ CText lo ∧ CText dt ∧ CText gl ∧ 0 ≤ max mn mx
  | .date so lo fm dt mn mx gl => CText so ∧ CText lo ∧ CText fm ∧ CText dt ∧ CText gl ∧ 0 ≤ max mn mx
  | .rex so lo pat dt mn mx _ gl => CText so ∧ CText lo ∧ '\x00' ∉ pat ∧ CText dt ∧ CText gl ∧ 0 ≤ max mn mx ∧
      ∃ r, rexCompile pat = .ok r
  | .rem dt gl => CText dt ∧ CText gl

/-- The options that the object declares. -/
def Maker.decl : Maker → Decl
  | .lit so lo _ _ _ => ⟨false, false, so, lo⟩
  | .int so lo _ _ _ _ => ⟨true, false, so, lo⟩
  | .dbl so lo _ _ _ _ => ⟨true, false, so, lo⟩
  | .str so lo _ _ _ _ => ⟨true, false, so, lo⟩
  | .file so lo _ _ _ _ => ⟨true, false, so, lo⟩
  | .date so lo _ _ _ _ _ => ⟨true, false, so, lo⟩
  | .rex so lo _ _ _ _ _ _ => ⟨true, false, so, lo⟩
  | .rem _ _ => ⟨false, false, none, none⟩

/-- How many values the object can take. -/
def Maker.limit : Maker → Int
  | .lit _ _ mn mx _ => max mn mx
  | .int _ _ _ mn mx _ => max mn mx
  | .dbl _ _ _ mn mx _ => max mn mx
  | .str _ _ _ mn mx _ => max mn mx
  | .file _ _ _ mn mx _ => max mn mx
  | .date _ _ _ _ mn mx _ => max mn mx
  | .rex _ _ _ _ mn mx _ _ => max mn mx
  | .rem _ _ => 1

/-- The memory that an object with `n` values needs: the struct and its arrays (for `arg_dbl`, one more `double` so that
the array can be moved to a multiple of `sizeof(double)`). -/
def Maker.room (a : Abi) (n : Int) : Maker → Int
  | .lit .. => a.argLit
  | .int .. => a.argInt + n * a.int
  | .dbl .. => a.argDbl + (n + 1) * a.dbl
  | .str .. => a.argStr + n * a.ptr
  | .file .. => a.argFile + 3 * (n * a.ptr)
  | .date .. => a.argDate + n * a.tm
  | .rex .. => a.argRex + a.privhdr + n * a.ptr
  | .rem .. => a.argRem

/-- The memory that an `arg_end` for `n` errors needs. -/
def endRoom (a : Abi) (n : Int) : Int := a.argEnd + n * a.int + 2 * (n * a.ptr)

/-- The table has not been freed: none of its pointers is NULL. -/
def Unfreed (T : LTable δ) : Prop := ∀ p ∈ T.ptrs, p ≠ none

/-- The table has been freed: all of its pointers are NULL. -/
def Freed (T : LTable δ) : Prop := ∀ p ∈ T.ptrs, p = none

/-- What a program may write to the members of an object: `ARG_HASOPTVALUE`, values and counts. -/
def Preset (lc : Libc δ) (h h' : Hdr (Obj δ)) : Prop :=
  h' = { h with hasOptValue := h'.hasOptValue, parent := h'.parent } ∧ Live lc AnyPat h'

/-- The text can be printed: the printing functions produce it, and it is not extremely long. -/
def Printable (x : M CStr) : Prop := ∃ out, x = .ok out ∧ '\x00' ∉ out ∧ out.length ≤ 500000000

/-- The calls that a program may make: with tables that it made and did not free, sound arguments, and texts that can be printed. -/
def Permitted (lc : Libc δ) (env : Bool) (w : World δ) : LifeOp δ → Prop
  | .make ms maxerr _ _ => (∀ m ∈ ms, Maker.Sound m) ∧ WF (ms.map Maker.decl) ∧ 1 ≤ maxerr
  | .preset i es => ∃ T, w.tables[i]? = some T ∧ Unfreed T ∧ List.Forall₂ (Preset lc) T.t.entries es
  | .parse i argv => ∃ T, w.tables[i]? = some T ∧ Unfreed T ∧ CArgs argv.tail ∧ ∃ r, Returns env argv T.t w.g r
  | .syntax i suffix => ∃ T, w.tables[i]? = some T ∧ Unfreed T ∧ Printable (printSyntax T.t.entries suffix)
  | .syntaxv i suffix => ∃ T, w.tables[i]? = some T ∧ Unfreed T ∧ Printable (printSyntaxv T.t.entries suffix)
  | .glossary i fmtlen fmt2 => ∃ T, w.tables[i]? = some T ∧ Unfreed T ∧ fmtlen ≤ 500000000 ∧
      Printable (printGlossary fmt2 T.t.entries)
  | .glossaryGnu i fuel => ∃ T, w.tables[i]? = some T ∧ Unfreed T ∧ Printable (printGlossaryGnu fuel T.t.entries)
  | .errors i prog => ∃ T, w.tables[i]? = some T ∧ Unfreed T ∧ Printable (printErrors T.t prog)
  | .freetable i => ∃ T, w.tables[i]? = some T
  | .free i => ∃ T, w.tables[i]? = some T

/-- The states that a program can reach from `w0` when all it does is legal. -/
inductive History (lc : Libc δ) (a : Abi) (addr : Nat → Nat) (env : Bool) (w0 : World δ) : World δ → Prop
  | start : History lc a addr env w0 w0
  | step {w w' : World δ} {op : LifeOp δ} {fuel : Nat} : History lc a addr env w0 w → Permitted lc env w op →
      lifeStep lc a addr env fuel w op = .ok w' → History lc a addr env w0 w'

/-- The text that a printing step has to print (C43 - C48 say what it is). -/
def textOf (w : World δ) : LifeOp δ → Option (M CStr)
  | .syntax i suffix => w.tables[i]?.map fun T => printSyntax T.t.entries suffix
  | .syntaxv i suffix => w.tables[i]?.map fun T => printSyntaxv T.t.entries suffix
  | .glossary i _ fmt2 => w.tables[i]?.map fun T => printGlossary fmt2 T.t.entries
  | .glossaryGnu i fuel => w.tables[i]?.map fun T => printGlossaryGnu fuel T.t.entries
  | .errors i prog => w.tables[i]?.map fun T => printErrors T.t prog
  | _ => none

/-- The blocks of the objects that the program has not freed. -/
def held (w : World δ) : List Nat := w.tables.flatMap fun T => pointers T.ptrs

/-- Block `p` is allocated. -/
def Allocated (heap : Heap) (p : Nat) : Prop := ∃ b, heap[p]? = some (some b)

end Argtable.Spec
