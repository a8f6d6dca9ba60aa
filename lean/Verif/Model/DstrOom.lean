import Verif.Model.Dstr
import Verif.Model.ParseOom
/-!
# Dynamic strings when memory runs out (arg_dstr.c)

The functions of Model/Dstr.lean once more.  `Supply` says which allocations succeed; if one does not, then the panic
function is called and does not return (it may jump back into the program).  The outcome then shows the memory and the
object as they are when the panic function is called.  A function that is not listed here does not allocate memory.
-/

namespace Argtable

/-- `xmalloc`, arg_utils.c:82-88, of a block that is given the bytes `b`. -/
def DState.mallocOom (sup : Supply) (st : DState) (b : List Byte) : OM DState (Nat × DState) :=
  if sup.malloc st.heap b.length then .ok (st.malloc b) else .error (.panic st)

/-- `arg_dstr_create`, arg_dstr.c:107-114.  The object itself is not a block of the heap; `objSize` is its size. -/
def dstrCreateOom (sup : Supply) (objSize : Nat) (heap : Heap) : OM Heap DState :=
  if sup.malloc heap objSize then .ok (dstrCreate heap) else .error (.panic heap)

/-- The first part of `arg_dstr_set`, arg_dstr.c:130-147. -/
def dstrSetDataOom (sup : Supply) (st : DState) (str : Option Ptr) (f : FreeFn) : OM DState DState :=
  match str with
  | none => up (do
    let st ← st.write ⟨.sbuf, 0⟩ [some '\x00']
    .ok { st with ds := { st.ds with data := ⟨.sbuf, 0⟩, freeProc := .static } })
  | some p =>
    if f = .volatile then do
      let s ← up (st.cstr p)
      let length ← up (chkInt s.length)
      if length > ARG_DSTR_SIZE then do
        let (a, st) ← st.mallocOom sup (List.replicate (s.length + 1) none)
        let st := { st with ds := { st.ds with data := ⟨.blk a, 0⟩, freeProc := .dynamic } }
        up (st.strcpy st.ds.data p)
      else do
        let st := { st with ds := { st.ds with data := ⟨.sbuf, 0⟩, freeProc := .static } }
        up (st.strcpy st.ds.data p)
    else .ok { st with ds := { st.ds with data := p, freeProc := f } }

/-- `arg_dstr_set`, arg_dstr.c:125-168. -/
def dstrSetOom (sup : Supply) (st : DState) (str : Option Ptr) (f : FreeFn) : OM DState DState := do
  let oldFree := st.ds.freeProc
  let old := st.ds.data
  let st ← dstrSetDataOom sup st str f
  let st ← up (if oldFree ≠ .static ∧ old ≠ st.ds.data then st.release oldFree old else .ok st)
  up (dstrFreeAppend st)

/-- The second part of `setup_append_buf`, arg_dstr.c:289-308. -/
def dstrGrowOom (sup : Supply) (st : DState) (newSpace : Int) : OM DState DState := do
  let total ← up (chkInt (newSpace + st.ds.appendUsed))
  if total ≥ st.ds.appendSize then do
    let total ← up (if total < 100 then .ok 200 else chkInt (total * 2))
    let (a, st) ← st.mallocOom sup (List.replicate total.toNat (some '\x00'))
    let st ← up (st.strcpy ⟨.blk a, 0⟩ st.ds.data)
    let st ← up (match st.ds.appendData with
      | some o => st.free ⟨.blk o, 0⟩
      | none => .ok st)
    .ok { st with ds := { st.ds with appendData := some a, appendSize := total } }
  else up (match st.ds.appendData with
    | none => .error (.ub "setup_append_buf: NULL append buffer")
    | some a => if st.ds.data ≠ ⟨.blk a, 0⟩ then st.strcpy ⟨.blk a, 0⟩ st.ds.data else .ok st)

/-- `setup_append_buf`, arg_dstr.c:260-312. -/
def dstrSetupOom (sup : Supply) (st : DState) (newSpace : Int) : OM DState DState := do
  let st ← up (dstrUsed st)
  let st ← dstrGrowOom sup st newSpace
  let st ← up (dstrFree st)
  match st.ds.appendData with
  | some a => .ok { st with ds := { st.ds with data := ⟨.blk a, 0⟩ } }
  | none => .error (.fault (.ub "setup_append_buf: NULL append buffer"))

/-- `arg_dstr_cat`, arg_dstr.c:175-178. -/
def dstrCatOom (sup : Supply) (st : DState) (str : Ptr) : OM DState DState := do
  let s ← up (st.cstr str)
  let n ← up (chkInt (s.length + 1))
  let st ← dstrSetupOom sup st n
  let d ← up (st.cstr st.ds.data)
  let s ← up (st.cstr str)
  let dst : Ptr := { st.ds.data with off := st.ds.data.off + d.length }
  up (if overlap dst str s.length then .error (.ub "memcpy: overlapping areas")
    else st.write dst (bytesOf s))

/-- `arg_dstr_catc`, arg_dstr.c:180-183. -/
def dstrCatcOom (sup : Supply) (st : DState) (c : Char) : OM DState DState := do
  let st ← dstrSetupOom sup st 2
  let d ← up (st.cstr st.ds.data)
  up (st.write { st.ds.data with off := st.ds.data.off + d.length } [some c])

/-- The loop of `arg_dstr_catf`, arg_dstr.c:234-254; `k` bounds the number of iterations.  The first buffer is allocated
before the loop, the others at the end of its body. -/
def catfLoopOom (sup : Supply) (text : CStr) : (k : Nat) → (st : DState) → (n : Int) → OM DState (Nat × DState)
  | 0, _, _ => .error (.fault .fuel)
  | k + 1, st, n => do
    let m ← up (chkInt (n + 2))
    let (buff, st) ← st.mallocOom sup (List.replicate m.toNat (some '\x00'))
    let st ← up (vsnprintf st buff n.toNat text)
    let r ← up (chkInt text.length)
    let b ← up (st.cstr ⟨.blk buff, 0⟩)
    if (b.length : Int) < n then .ok (buff, st)
    else do
      let n ← up (if r > n then .ok r else chkInt (n + n))
      let st ← up (st.free ⟨.blk buff, 0⟩)
      catfLoopOom sup text k st n

/-- `arg_dstr_catf`, arg_dstr.c:218-258. -/
def dstrCatfOom (sup : Supply) (st : DState) (fmtlen : Option Nat) (text : CStr) : OM DState DState :=
  match fmtlen with
  | none => .ok st
  | some l => do
    let n ← up (chkInt (2 * l))
    let (buff, st) ← catfLoopOom sup text (text.length + 2) st (if n < 16 then 16 else n)
    let st ← dstrCatOom sup st ⟨.blk buff, 0⟩
    up (st.free ⟨.blk buff, 0⟩)

end Argtable
