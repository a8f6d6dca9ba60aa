import Verif.Model.Dstr
import Verif.Model.RexWork

/-!
# Appending to an arg_dstr with a counter (src/arg_dstr.c:175-183, 260-312)

The functions of Model/Dstr.lean that append, with one addition: the number of bytes that `strlen`, `strcpy`, `memset` and
`memcpy` look at or write.  (`strcpy` counts once for each byte that it copies.)
-/

namespace Argtable

/-- So many bytes are looked at or written.  (a counter for the string functions called in arg_dstr.c:107-339.) -/
def spend (n : Nat) : Counted Unit := ⟨.ok (), n⟩

/-- `strlen(p)`; the string is the result.  (as called in arg_dstr.c:125-312.) -/
def strlenN (st : DState) (p : Ptr) : Counted CStr := do
  let s ← free (st.cstr p)
  spend (s.length + 1)
  pure s

/-- `strcpy(dst, src)`.  (as called in arg_dstr.c:125-312.) -/
def strcpyN (st : DState) (dst src : Ptr) : Counted DState := do
  let s ← free (st.cstr src)
  spend (s.length + 1)
  free (st.strcpy dst src)

/-- The beginning of `setup_append_buf`, arg_dstr.c:268-287; see `dstrUsed`. -/
def dstrUsedN (st : DState) : Counted DState :=
  if some st.ds.data ≠ st.ds.appendPtr then do
    let st ← free (if st.ds.appendSize > 500 then
        match st.ds.appendData with
        | some a => do
          let st ← st.free ⟨.blk a, 0⟩
          .ok { st with ds := { st.ds with appendData := none, appendSize := 0 } }
        | none => .ok { st with ds := { st.ds with appendData := none, appendSize := 0 } }
      else .ok st)
    let s ← strlenN st st.ds.data
    let used ← free (chkInt s.length)
    pure { st with ds := { st.ds with appendUsed := used } }
  else do
    let b ← free (st.bytes st.ds.data.loc)
    if st.ds.appendUsed < 0 then free (.error (.ub "read outside a block"))
    else match b[st.ds.data.off + st.ds.appendUsed.toNat]? with
      | none => free (.error (.ub "read outside a block"))
      | some none => free (.error (.ub "read of an uninitialised byte"))
      | some (some c) => do
        spend 1
        if c ≠ '\x00' then do
          let s ← strlenN st st.ds.data
          let used ← free (chkInt s.length)
          pure { st with ds := { st.ds with appendUsed := used } }
        else pure st

/-- The rest of `setup_append_buf`, arg_dstr.c:289-308; see `dstrGrow`.  `memset` writes the whole new buffer. -/
def dstrGrowN (st : DState) (newSpace : Int) : Counted DState := do
  let total ← free (chkInt (newSpace + st.ds.appendUsed))
  if total ≥ st.ds.appendSize then do
    let total ← free (if total < 100 then .ok 200 else chkInt (total * 2))
    let (a, st) := st.malloc (List.replicate total.toNat (some '\x00'))
    spend total.toNat
    let st ← strcpyN st ⟨.blk a, 0⟩ st.ds.data
    let st ← free (match st.ds.appendData with
      | some o => st.free ⟨.blk o, 0⟩
      | none => .ok st)
    pure { st with ds := { st.ds with appendData := some a, appendSize := total } }
  else match st.ds.appendData with
    | none => free (.error (.ub "setup_append_buf: NULL append buffer"))
    | some a => if st.ds.data ≠ ⟨.blk a, 0⟩ then strcpyN st ⟨.blk a, 0⟩ st.ds.data else pure st

/-- `setup_append_buf`, arg_dstr.c:260-312; see `dstrSetup`. -/
def dstrSetupN (st : DState) (newSpace : Int) : Counted DState := do
  let st ← dstrUsedN st
  let st ← dstrGrowN st newSpace
  let st ← free (dstrFree st)
  match st.ds.appendData with
  | some a => pure { st with ds := { st.ds with data := ⟨.blk a, 0⟩ } }
  | none => free (.error (.ub "setup_append_buf: NULL append buffer"))

/-- `arg_dstr_cat`, arg_dstr.c:175-178; see `dstrCat`. -/
def dstrCatN (st : DState) (str : Ptr) : Counted DState := do
  let s ← strlenN st str
  let n ← free (chkInt (s.length + 1))
  let st ← dstrSetupN st n
  let d ← strlenN st st.ds.data
  let s ← strlenN st str
  let dst : Ptr := { st.ds.data with off := st.ds.data.off + d.length }
  if overlap dst str s.length then free (.error (.ub "memcpy: overlapping areas"))
  else do
    spend s.length
    free (st.write dst (bytesOf s))

/-- `arg_dstr_catc`, arg_dstr.c:180-183; see `dstrCatc`. -/
def dstrCatcN (st : DState) (c : Char) : Counted DState := do
  let st ← dstrSetupN st 2
  let d ← strlenN st st.ds.data
  spend 1
  free (st.write { st.ds.data with off := st.ds.data.off + d.length } [some c])

end Argtable
