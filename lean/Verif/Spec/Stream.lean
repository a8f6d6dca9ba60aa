import Verif.Spec.Dstr
import Verif.Spec.Live
import Verif.Model.Stream
/-!
# What it means to print

`Prints f text`: whatever is in memory and on the stream already, `f` returns, has added exactly `text` to the
stream, has released all memory that it allocated, and has changed no block that existed before.

`Adds f text`: whatever was done to an `arg_dstr` object before, `f` returns and has appended exactly `text` to its
string; the object can be destroyed as if the text had been appended by its owner.
-/

namespace Argtable.Spec

variable {δ : Type}

/-- The calls `cmds` only append, and what they append is `text`.  (Formats longer than 500 million characters, with
which an `int` overflows, do not count.) -/
inductive Appending : List DCmd → CStr → Prop
  | nil : Appending [] []
  | cat (s : CStr) {cmds : List DCmd} {text : CStr} : Appending cmds text → Appending (.cat s :: cmds) (s ++ text)
  | catc (c : Char) {cmds : List DCmd} {text : CStr} : Appending cmds text → Appending (.catc c :: cmds) (c :: text)
  | catf {l : Nat} (s : CStr) {cmds : List DCmd} {text : CStr} : l ≤ 500000000 → Appending cmds text →
      Appending (.catf (some l) s :: cmds) (s ++ text)

/-- `f` consists of the calls `cmds`, one after the other. -/
def ConsistsOf (f : DState → M DState) (cmds : List DCmd) : Prop := ∀ st, f st = execAll st cmds

/-- `f` writes `text` and leaves no memory behind. -/
def Prints (f : Heap → CStr → M (Heap × CStr)) (text : CStr) : Prop :=
  ∀ (heap : Heap) (out : CStr), ∃ heap', f heap out = .ok (heap', out ++ text) ∧
    liveBlocks heap' = liveBlocks heap ∧ ∀ a, a < heap.length → heap'[a]? = heap[a]?

/-- `f` appends `text` to a dynamic string made by proper calls. -/
def Adds (f : DState → M DState) (text : CStr) : Prop :=
  ∀ (heap : Heap) (cmds : List DCmd), (∀ c ∈ cmds, c.Proper) →
    (cmds.map DCmd.size).sum + text.length ≤ 500000000 →
    ∃ st st', execAll (dstrCreate heap) cmds = .ok st ∧ f st = .ok st' ∧
      st'.cstr (dstrCstr st') = .ok (contents cmds ++ text) ∧
      ∃ heap', dstrDestroy st' = .ok (heap', cmds.flatMap DCmd.custom) ∧
        liveBlocks heap' = liveBlocks heap ++ (cmds.flatMap DCmd.static).map strBytes

/-- The error function that the constructor installed in `h`, as the function at work.  That of a date entry uses
the format given to `arg_daten`. -/
def Installed (lc : Libc δ) (h : Hdr (Obj δ)) (f : Option (ErrFn (Obj δ))) : Prop :=
  match h.parent with
  | .lit _ => f = some fun _ => litErrorDs h.shortopts h.longopts h.datatype
  | .int _ => f = some fun _ => intErrorDs h.shortopts h.longopts h.datatype
  | .dbl _ => f = some fun _ => dblErrorDs h.shortopts h.longopts h.datatype
  | .str _ => f = some fun _ => strErrorDs h.shortopts h.longopts h.datatype
  | .file _ => f = some fun _ => fileErrorDs h.shortopts h.longopts h.datatype
  | .rex _ => f = some fun _ => rexErrorDs h.shortopts h.longopts h.datatype
  | .date _ => ∃ (so lo fm dt : Option CStr) (mn mx : Int) (gl : Option CStr) (h0 : Hdr (Obj δ)) (ov : Bool)
      (o : DateObj), argDaten lc so lo fm dt mn mx gl = .ok h0 ∧ h = { h0 with hasOptValue := ov, parent := .date o } ∧
      f = some fun _ => dateErrorDs lc.sample (fm.getD (cs "%x")) h.shortopts h.longopts h.datatype
  | .rem => f = none

end Argtable.Spec
