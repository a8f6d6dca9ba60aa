import Verif.Model.Dstr
/-!
# Using an arg_dstr

A client calls the functions of arg_dstr.c one after the other.  Strings that it passes live in blocks that it
allocates itself:
* what it passes with `ARG_DSTR_VOLATILE`, or appends, it frees as soon as the call returns;
* what it passes with `ARG_DSTR_STATIC` it leaves alone;
* what it passes with `ARG_DSTR_DYNAMIC` or a function of its own, it hands over.
-/

namespace Argtable.Spec

/-- One call. -/
inductive DCmd where
  | setNull
  | setVolatile (s : CStr)
  | setStatic (s : CStr)
  | setDynamic (s : CStr)
  | setCustom (k : Nat) (s : CStr)
  | cat (s : CStr)
  | catc (c : Char)
  /-- `arg_dstr_catf` with a format of `fmtlen` characters (`none`: NULL) that formats to `text` -/
  | catf (fmtlen : Option Nat) (text : CStr)
  | reset

/-- The C string `s` in memory. -/
def strBytes (s : CStr) : List Byte := bytesOf (s ++ ['\x00'])

/-- The call, with the client's part. -/
def DCmd.exec (st : DState) : DCmd → M DState
  | .setNull => dstrSet st none .static
  | .setVolatile s => do
    let (a, st) := st.malloc (strBytes s)
    let st ← dstrSet st (some ⟨.blk a, 0⟩) .volatile
    st.free ⟨.blk a, 0⟩
  | .setStatic s => do
    let (a, st) := st.malloc (strBytes s)
    dstrSet st (some ⟨.blk a, 0⟩) .static
  | .setDynamic s => do
    let (a, st) := st.malloc (strBytes s)
    dstrSet st (some ⟨.blk a, 0⟩) .dynamic
  | .setCustom k s => do
    let (a, st) := st.malloc (strBytes s)
    dstrSet st (some ⟨.blk a, 0⟩) (.custom k)
  | .cat s => do
    let (a, st) := st.malloc (strBytes s)
    let st ← dstrCat st ⟨.blk a, 0⟩
    st.free ⟨.blk a, 0⟩
  | .catc c => dstrCatc st c
  | .catf l t => dstrCatf st l t
  | .reset => dstrReset st

/-- All calls, in order. -/
def execAll (st : DState) : List DCmd → M DState
  | [] => .ok st
  | c :: cmds => do
    let st ← c.exec st
    execAll st cmds

/-- What the string should be after a call. -/
def DCmd.after (text : CStr) : DCmd → CStr
  | .setNull => []
  | .setVolatile s => s
  | .setStatic s => s
  | .setDynamic s => s
  | .setCustom _ s => s
  | .cat s => text ++ s
  | .catc c => text ++ [c]
  | .catf none _ => text
  | .catf (some _) t => text ++ t
  | .reset => []

/-- What the string should be after all calls, starting with the empty string. -/
def contents (cmds : List DCmd) : CStr := cmds.foldl DCmd.after []

/-- C strings contain no NUL. -/
def DCmd.Proper : DCmd → Prop
  | .setNull => True
  | .setVolatile s => '\x00' ∉ s
  | .setStatic s => '\x00' ∉ s
  | .setDynamic s => '\x00' ∉ s
  | .setCustom _ s => '\x00' ∉ s
  | .cat s => '\x00' ∉ s
  | .catc c => c ≠ '\x00'
  | .catf _ t => '\x00' ∉ t
  | .reset => True

/-- How much text a call brings. -/
def DCmd.size : DCmd → Nat
  | .setNull => 0
  | .setVolatile s => s.length
  | .setStatic s => s.length
  | .setDynamic s => s.length
  | .setCustom _ s => s.length
  | .cat s => s.length
  | .catc _ => 1
  | .catf l t => l.getD 0 + t.length
  | .reset => 0

/-- The strings passed with `ARG_DSTR_STATIC`. -/
def DCmd.static : DCmd → List CStr
  | .setStatic s => [s]
  | _ => []

/-- The strings handed over together with a function to release them. -/
def DCmd.custom : DCmd → List (Nat × CStr)
  | .setCustom k s => [(k, s)]
  | _ => []

/-- The blocks that are allocated, oldest first. -/
def liveBlocks (h : Heap) : List (List Byte) := h.filterMap id

end Argtable.Spec
