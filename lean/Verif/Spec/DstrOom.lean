import Verif.Spec.Dstr
import Verif.Model.DstrOom
import Verif.Spec.Stream
import Verif.Spec.Oom
/-!
# Using an arg_dstr when memory may run out

The client has set a panic function that jumps back to where the call was made.  It then carries on: it releases the
string that it has passed for copying, and makes its next call.
-/

namespace Argtable.Spec

/-- The client's side of a call: `call` is made, then, whether it has returned (`true`) or has run out of memory (`false`),
`after` is done. -/
def recover (call : OM DState DState) (after : DState → M DState) : M (DState × Bool) :=
  match call with
  | .ok st => do
    let st ← after st
    .ok (st, true)
  | .error (.panic st) => do
    let st ← after st
    .ok (st, false)
  | .error (.fault f) => .error f

/-- The call `c`, with the client's part, as in `DCmd.exec`; and whether it has returned.  The client's own allocations
succeed. -/
def DCmd.attempt (sup : Supply) (st : DState) : DCmd → M (DState × Bool)
  | .setNull => recover (dstrSetOom sup st none .static) .ok
  | .setVolatile s =>
    let (a, st) := st.malloc (strBytes s)
    recover (dstrSetOom sup st (some ⟨.blk a, 0⟩) .volatile) fun st => st.free ⟨.blk a, 0⟩
  | .setStatic s =>
    let (a, st) := st.malloc (strBytes s)
    recover (dstrSetOom sup st (some ⟨.blk a, 0⟩) .static) .ok
  | .setDynamic s =>
    let (a, st) := st.malloc (strBytes s)
    recover (dstrSetOom sup st (some ⟨.blk a, 0⟩) .dynamic) .ok
  | .setCustom k s =>
    let (a, st) := st.malloc (strBytes s)
    recover (dstrSetOom sup st (some ⟨.blk a, 0⟩) (.custom k)) .ok
  | .cat s =>
    let (a, st) := st.malloc (strBytes s)
    recover (dstrCatOom sup st ⟨.blk a, 0⟩) fun st => st.free ⟨.blk a, 0⟩
  | .catc c => recover (dstrCatcOom sup st c) .ok
  | .catf l t => recover (dstrCatfOom sup st l t) .ok
  | .reset => recover (up (dstrReset st)) .ok

/-- All calls, in order, each with its own supply of memory; and which of them have returned. -/
def attemptAll (st : DState) : List (Supply × DCmd) → M (DState × List Bool)
  | [] => .ok (st, [])
  | (sup, c) :: hist => do
    let (st, b) ← c.attempt sup st
    let (st, bs) ← attemptAll st hist
    .ok (st, b :: bs)

/-- The calls that have returned. -/
def returned : List (Supply × DCmd) → List Bool → List DCmd
  | (_, c) :: hist, true :: bs => c :: returned hist bs
  | _ :: hist, false :: bs => returned hist bs
  | _, _ => []

/-- How many calls of `arg_dstr_catf` have run out of memory. -/
def brokenOff : List (Supply × DCmd) → List Bool → Nat
  | (_, .catf ..) :: hist, false :: bs => brokenOff hist bs + 1
  | _ :: hist, _ :: bs => brokenOff hist bs
  | _, _ => 0

/-! ### Printing

A printing function is a sequence of calls of the functions above.  When memory runs out in one of them, the rest is not
executed. -/

/-- The calls `cmds`, until one runs out of memory; and whether all have returned. -/
def untilShort (sup : Supply) (st : DState) : List DCmd → M (DState × Bool)
  | [] => .ok (st, true)
  | c :: cmds => do
    let (st, b) ← c.attempt sup st
    if b then untilShort sup st cmds else .ok (st, false)

/-- `f`, which adds `text` to the string of an object, when memory may run out.  Whatever has been done to the object
before, with calls that have returned and calls that have not: either `f` does what it always does, or memory is limited
and a part of the text, from its beginning, has been added.  In both cases the object can be used and destroyed as before;
at most one more block is lost. -/
def AddsPart (f : DState → M DState) (text : CStr) : Prop :=
  ∃ cmds, Appending cmds text ∧ ConsistsOf f cmds ∧
  ∀ (heap : Heap) (hist : List (Supply × DCmd)) (sup : Supply), (∀ e ∈ hist, e.2.Proper) →
    (hist.map fun e => e.2.size).sum + text.length ≤ 500000000 →
    ∃ st bs st' b, attemptAll (dstrCreate heap) hist = .ok (st, bs) ∧ untilShort sup st cmds = .ok (st', b) ∧
      (b = true → f st = .ok st') ∧ (b = false → ¬ Plenty sup) ∧
      ∃ part rest, text = part ++ rest ∧ (b = true → rest = []) ∧
        st'.cstr (dstrCstr st') = .ok (contents (returned hist bs) ++ part) ∧
        ∃ heap' lost, dstrDestroy st' = .ok (heap', (returned hist bs).flatMap DCmd.custom) ∧
          (liveBlocks heap').Perm (liveBlocks heap ++ ((returned hist bs).flatMap DCmd.static).map strBytes ++ lost) ∧
          lost.length ≤ brokenOff hist bs + if b then 0 else 1

/-- A function that prints to a stream by means of an object of `objSize` bytes that it fills with the calls `cmds`
(`toStream`), when memory may run out: the memory, what is on the stream, and whether the function has returned. -/
def streamShort (sup : Supply) (objSize : Nat) (cmds : List DCmd) (heap : Heap) (out : CStr) : M ((Heap × CStr) × Bool) :=
  match dstrCreateOom sup objSize heap with
  | .error (.fault f) => .error f
  | .error (.panic heap) => .ok ((heap, out), false)
  | .ok st => do
    let (st, b) ← untilShort sup st cmds
    if b then do
      let s ← st.cstr (dstrCstr st)
      let (heap, _) ← dstrDestroy st
      .ok ((heap, out ++ s), true)
    else .ok ((st.heap, out), false)

/-- `toStream f`, which prints `text`, when memory may run out: either it prints the whole text, as always, or memory is
limited, nothing has been printed, no block that existed before has been changed, and at most two blocks (and the object)
are lost. -/
def PrintsWholly (f : DState → M DState) (text : CStr) : Prop :=
  ∃ cmds, Appending cmds text ∧ ConsistsOf f cmds ∧
  ∀ (heap : Heap) (out : CStr) (sup : Supply) (objSize : Nat),
    (∃ heap', streamShort sup objSize cmds heap out = .ok ((heap', out ++ text), true) ∧
      toStream f heap out = .ok (heap', out ++ text)) ∨
    (¬ Plenty sup ∧ ∃ heap', streamShort sup objSize cmds heap out = .ok ((heap', out), false) ∧
      (∀ a, a < heap.length → heap'[a]? = heap[a]?) ∧
      (liveBlocks heap').length ≤ (liveBlocks heap).length + 2)

end Argtable.Spec
