import Verif.Base
/-!
# Dynamic strings (arg_dstr.c)

The heap is explicit: `malloc` makes a block with a new address, `free` kills it for ever, and every access
is checked: an access to a dead block, outside a block or of a byte that was never written is a fault, and so
is an overlapping `strcpy`/`memcpy`.  The object itself is a structure whose member `sbuf` can be pointed into.

Simplifications: addresses are never reused (a dangling pointer never becomes valid again by accident);
`malloc` never fails (`xmalloc` calls the panic handler, arg_utils.c:82-90); `(int)strlen(s)` of a string of
2 GiB and more, which wraps around, is a fault like any other `int` overflow.
-/

namespace Argtable

/-- A byte of memory; `none` is a byte that was never written.
(the bytes of `sbuf`, `append_data` and of the strings passed, arg_dstr.c:96-103.) -/
abbrev Byte := Option Char

/-- The blocks ever allocated, by address; `none` is a block that was freed.
(what `xmalloc` and `xfree` work on, arg_utils.c:82-111.) -/
abbrev Heap := List (Option (List Byte))

/-- Where a `char*` points to: the member `sbuf` of the object, or a block of the heap.
(the values of `data`, arg_dstr.c:97.) -/
inductive Loc where
  | sbuf
  | blk (a : Nat)
deriving DecidableEq, Repr

/-- A `char*`.  (`data` and `append_data`, arg_dstr.c:97 and 100.) -/
structure Ptr where
  loc : Loc
  off : Nat := 0
deriving DecidableEq, Repr

/-- `arg_dstr_freefn*`, argtable3.h:83, 375-377: `ARG_DSTR_STATIC` (0), `ARG_DSTR_VOLATILE` (1), `ARG_DSTR_DYNAMIC`
(3), or one of the caller's functions. -/
inductive FreeFn where
  | static
  | volatile
  | dynamic
  | custom (k : Nat)
deriving DecidableEq, Repr

/-- `ARG_DSTR_SIZE`, argtable3_private.h:54-56. -/
def ARG_DSTR_SIZE : Nat := 200

/-- `struct _internal_arg_dstr`, arg_dstr.c:96-103. -/
structure Dstr where
  data : Ptr
  freeProc : FreeFn
  sbuf : List Byte
  appendData : Option Nat
  appendSize : Int
  appendUsed : Int
deriving DecidableEq, Repr

/-- The memory, the object, and the calls made to the caller's `free_proc` functions: which function, and the
string it was given.  (what the functions of arg_dstr.c:107-339 change.) -/
structure DState where
  heap : Heap
  ds : Dstr
  log : List (Nat × CStr)
deriving DecidableEq, Repr

/-- The bytes of a block.  (for the accesses in arg_dstr.c:107-339.) -/
def DState.bytes (st : DState) : Loc → M (List Byte)
  | .sbuf => .ok st.ds.sbuf
  | .blk a => match st.heap[a]? with
    | some (some b) => .ok b
    | _ => .error (.ub "access to a block that is not allocated")

/-- Replaces the bytes of a block.  (for the stores in arg_dstr.c:107-339.) -/
def DState.setBytes (st : DState) (b : List Byte) : Loc → DState
  | .sbuf => { st with ds := { st.ds with sbuf := b } }
  | .blk a => { st with heap := st.heap.set a (some b) }

/-- The characters up to the NUL.  (what `strlen` and `strcpy` look at, arg_dstr.c:125-312.) -/
def scanStr : List Byte → M CStr
  | [] => .error (.ub "read outside a block")
  | none :: _ => .error (.ub "read of an uninitialised byte")
  | some c :: t => if c = '\x00' then .ok [] else do
    let r ← scanStr t
    .ok (c :: r)

/-- The C string at `p`.  (the argument of `strlen` and `strcpy`, arg_dstr.c:125-312.) -/
def DState.cstr (st : DState) (p : Ptr) : M CStr := do
  let b ← st.bytes p.loc
  if p.off ≤ b.length then scanStr (b.drop p.off) else .error (.ub "pointer outside its block")

/-- Writing consecutive bytes.  (the stores of arg_dstr.c:125-312.) -/
def DState.write (st : DState) (p : Ptr) (src : List Byte) : M DState := do
  let b ← st.bytes p.loc
  if p.off + src.length ≤ b.length then
    .ok (st.setBytes (b.take p.off ++ src ++ b.drop (p.off + src.length)) p.loc)
  else .error (.ub "write outside a block")

/-- The bytes of a string.  (what `strcpy` and `vsnprintf` write, arg_dstr.c:125-312.) -/
def bytesOf (s : List Char) : List Byte := s.map some

/-- Do two areas of `n` bytes overlap?
(C11 7.24.2.3: `strcpy` between overlapping areas is undefined; the calls are in arg_dstr.c:125-312.) -/
def overlap (p q : Ptr) (n : Nat) : Prop := p.loc = q.loc ∧ p.off < q.off + n ∧ q.off < p.off + n

instance (p q : Ptr) (n : Nat) : Decidable (overlap p q n) := by unfold overlap; infer_instance

/-- `strcpy(dst, src)`.  (the calls in arg_dstr.c:125-312.) -/
def DState.strcpy (st : DState) (dst src : Ptr) : M DState := do
  let s ← st.cstr src
  if overlap dst src (s.length + 1) then .error (.ub "strcpy: overlapping areas")
  else st.write dst (bytesOf (s ++ ['\x00']))

/-- `malloc`, with the given initial bytes.  (the function behind `xmalloc`, arg_utils.c:82-88.) -/
def DState.malloc (st : DState) (b : List Byte) : Nat × DState :=
  (st.heap.length, { st with heap := st.heap ++ [some b] })

/-- `free` (`xfree`).  (arg_utils.c:109-111.) -/
def DState.free (st : DState) (p : Ptr) : M DState :=
  match p.loc with
  | .sbuf => .error (.ub "free of a pointer that malloc did not return")
  | .blk a => if p.off ≠ 0 then .error (.ub "free of a pointer that malloc did not return")
    else match st.heap[a]? with
      | some (some _) => .ok { st with heap := st.heap.set a none }
      | _ => .error (.ub "free of a block that is not allocated")

/-- Calling the free procedure `f` on `p`, arg_dstr.c:155-161, 315-321.  A function of the caller releases the
block: from then on the object must not use it. -/
def DState.release (st : DState) (f : FreeFn) (p : Ptr) : M DState :=
  match f with
  | .static => .ok st
  | .volatile => .error (.ub "call of the function pointer 1")
  | .dynamic => st.free p
  | .custom k => match p.loc with
    | .sbuf => .error (.ub "the caller's function is given the object's own buffer")
    | .blk a => do
      let s ← st.cstr p
      .ok { st with heap := st.heap.set a none, log := st.log ++ [(k, s)] }

/-- Result of an `int` computation.  (the sizes of arg_dstr.c:175-312 are of type `int`.) -/
def chkInt (i : Int) : M Int :=
  if -2147483648 ≤ i ∧ i ≤ 2147483647 then .ok i else .error (.ub "signed overflow")

/-- `arg_dstr_create`, arg_dstr.c:107-114. -/
def dstrCreate (heap : Heap) : DState :=
  { heap, log := [], ds :=
    { data := ⟨.sbuf, 0⟩, freeProc := .static, sbuf := List.replicate (ARG_DSTR_SIZE + 1) (some '\x00'),
      appendData := none, appendSize := 0, appendUsed := 0 } }

/-- `ds->append_data` as a pointer.  (arg_dstr.c:100.) -/
def Dstr.appendPtr (d : Dstr) : Option Ptr := d.appendData.map fun a => ⟨.blk a, 0⟩

/-- Freeing the append buffer, arg_dstr.c:163-167, 327-331. -/
def dstrFreeAppend (st : DState) : M DState :=
  match st.ds.appendData with
  | some a =>
    if st.ds.appendSize > 0 then do
      let st ← st.free ⟨.blk a, 0⟩
      .ok { st with ds := { st.ds with appendData := none, appendSize := 0 } }
    else .ok st
  | none => .ok st

/-- The first part of `arg_dstr_set`, arg_dstr.c:130-147: the new value. -/
def dstrSetData (st : DState) (str : Option Ptr) (f : FreeFn) : M DState :=
  match str with
  | none => do
    let st ← st.write ⟨.sbuf, 0⟩ [some '\x00']
    .ok { st with ds := { st.ds with data := ⟨.sbuf, 0⟩, freeProc := .static } }
  | some p =>
    if f = .volatile then do
      let s ← st.cstr p
      let length ← chkInt s.length
      if length > ARG_DSTR_SIZE then do
        let (a, st) := st.malloc (List.replicate (s.length + 1) none)
        let st := { st with ds := { st.ds with data := ⟨.blk a, 0⟩, freeProc := .dynamic } }
        st.strcpy st.ds.data p
      else do
        let st := { st with ds := { st.ds with data := ⟨.sbuf, 0⟩, freeProc := .static } }
        st.strcpy st.ds.data p
    else .ok { st with ds := { st.ds with data := p, freeProc := f } }

/-- `arg_dstr_set`, arg_dstr.c:125-168. -/
def dstrSet (st : DState) (str : Option Ptr) (f : FreeFn) : M DState := do
  let oldFree := st.ds.freeProc
  let old := st.ds.data
  let st ← dstrSetData st str f
  let st ← if oldFree ≠ .static ∧ old ≠ st.ds.data then st.release oldFree old else .ok st
  dstrFreeAppend st

/-- `arg_dstr_cstr`, arg_dstr.c:170-173. -/
def dstrCstr (st : DState) : Ptr := st.ds.data

/-- `arg_dstr_free`, arg_dstr.c:314-323. -/
def dstrFree (st : DState) : M DState :=
  if st.ds.freeProc ≠ .static then do
    let st ← st.release st.ds.freeProc st.ds.data
    .ok { st with ds := { st.ds with freeProc := .static } }
  else .ok st

/-- The beginning of `setup_append_buf`, arg_dstr.c:268-287: drops a big unused buffer and determines
`append_used`. -/
def dstrUsed (st : DState) : M DState :=
  if some st.ds.data ≠ st.ds.appendPtr then do
    let st ← if st.ds.appendSize > 500 then
        match st.ds.appendData with
        | some a => do
          let st ← st.free ⟨.blk a, 0⟩
          .ok { st with ds := { st.ds with appendData := none, appendSize := 0 } }
        | none => .ok { st with ds := { st.ds with appendData := none, appendSize := 0 } }
      else .ok st
    let s ← st.cstr st.ds.data
    let used ← chkInt s.length
    .ok { st with ds := { st.ds with appendUsed := used } }
  else do
    let b ← st.bytes st.ds.data.loc
    if st.ds.appendUsed < 0 then .error (.ub "read outside a block")
    else match b[st.ds.data.off + st.ds.appendUsed.toNat]? with
      | none => .error (.ub "read outside a block")
      | some none => .error (.ub "read of an uninitialised byte")
      | some (some c) =>
        if c ≠ '\x00' then do
          let s ← st.cstr st.ds.data
          let used ← chkInt s.length
          .ok { st with ds := { st.ds with appendUsed := used } }
        else .ok st

/-- The rest of `setup_append_buf`, arg_dstr.c:289-308: makes room. -/
def dstrGrow (st : DState) (newSpace : Int) : M DState := do
  let total ← chkInt (newSpace + st.ds.appendUsed)
  if total ≥ st.ds.appendSize then do
    let total ← if total < 100 then .ok 200 else chkInt (total * 2)
    let (a, st) := st.malloc (List.replicate total.toNat (some '\x00'))
    let st ← st.strcpy ⟨.blk a, 0⟩ st.ds.data
    let st ← match st.ds.appendData with
      | some o => st.free ⟨.blk o, 0⟩
      | none => .ok st
    .ok { st with ds := { st.ds with appendData := some a, appendSize := total } }
  else match st.ds.appendData with
    | none => .error (.ub "setup_append_buf: NULL append buffer")
    | some a => if st.ds.data ≠ ⟨.blk a, 0⟩ then st.strcpy ⟨.blk a, 0⟩ st.ds.data else .ok st

/-- `setup_append_buf`, arg_dstr.c:260-312. -/
def dstrSetup (st : DState) (newSpace : Int) : M DState := do
  let st ← dstrUsed st
  let st ← dstrGrow st newSpace
  let st ← dstrFree st
  match st.ds.appendData with
  | some a => .ok { st with ds := { st.ds with data := ⟨.blk a, 0⟩ } }
  | none => .error (.ub "setup_append_buf: NULL append buffer")

/-- `arg_dstr_cat`, arg_dstr.c:175-178.  `str` is read again after `setup_append_buf`. -/
def dstrCat (st : DState) (str : Ptr) : M DState := do
  let s ← st.cstr str
  let n ← chkInt (s.length + 1)
  let st ← dstrSetup st n
  let d ← st.cstr st.ds.data
  let s ← st.cstr str
  let dst : Ptr := { st.ds.data with off := st.ds.data.off + d.length }
  if overlap dst str s.length then .error (.ub "memcpy: overlapping areas")
  else st.write dst (bytesOf s)

/-- `arg_dstr_catc`, arg_dstr.c:180-183. -/
def dstrCatc (st : DState) (c : Char) : M DState := do
  let st ← dstrSetup st 2
  let d ← st.cstr st.ds.data
  st.write { st.ds.data with off := st.ds.data.off + d.length } [some c]

/-- `vsnprintf(buff, n + 1, fmt, …)` where the formatted text is `text`: at most `n` characters and a NUL are
written; the result is the length of `text`.  (arg_dstr.c:239.) -/
def vsnprintf (st : DState) (buff : Nat) (n : Nat) (text : CStr) : M DState :=
  st.write ⟨.blk buff, 0⟩ (bytesOf (text.take n ++ ['\x00']))

/-- The loop of `arg_dstr_catf`, arg_dstr.c:236-254; `k` bounds the number of iterations. -/
def catfLoop (text : CStr) : (k : Nat) → (st : DState) → (n : Int) → M (Nat × DState)
  | 0, _, _ => .error .fuel
  | k + 1, st, n => do
    let m ← chkInt (n + 2)
    let (buff, st) := st.malloc (List.replicate m.toNat (some '\x00'))
    let st ← vsnprintf st buff n.toNat text
    let r ← chkInt text.length
    let b ← st.cstr ⟨.blk buff, 0⟩
    if (b.length : Int) < n then .ok (buff, st)
    else do
      let n ← if r > n then .ok r else chkInt (n + n)
      let st ← st.free ⟨.blk buff, 0⟩
      catfLoop text k st n

/-- `arg_dstr_catf`, arg_dstr.c:218-258; `fmtlen` is the length of the format, `none` for NULL, and `text` the
formatted text. -/
def dstrCatf (st : DState) (fmtlen : Option Nat) (text : CStr) : M DState :=
  match fmtlen with
  | none => .ok st
  | some l => do
    let n ← chkInt (2 * l)
    let (buff, st) ← catfLoop text (text.length + 2) st (if n < 16 then 16 else n)
    let st ← dstrCat st ⟨.blk buff, 0⟩
    st.free ⟨.blk buff, 0⟩

/-- `arg_dstr_reset`, arg_dstr.c:325-335. -/
def dstrReset (st : DState) : M DState := do
  let st ← dstrFree st
  let st ← dstrFreeAppend st
  let st := { st with ds := { st.ds with data := ⟨.sbuf, 0⟩ } }
  st.write ⟨.sbuf, 0⟩ [some '\x00']

/-- `arg_dstr_destroy`, arg_dstr.c:116-123: what remains is the heap and the calls made; the object is gone. -/
def dstrDestroy (st : DState) : M (Heap × List (Nat × CStr)) := do
  let st ← dstrReset st
  .ok (st.heap, st.log)

end Argtable
