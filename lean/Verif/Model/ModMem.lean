import Verif.Model.Help
import Verif.Model.Stream
import Verif.Model.RexMem
/-!
# The module name and version and their memory (arg_cmd.c:45-105, 221-233)

`Model/Help` keeps the two strings as values.  Here they are blocks of the heap, allocated and released as the code
does, and the version is put together with an `arg_dstr` object.

Simplification: the strings passed are in memory of the caller.  (The library never hands out pointers to its own
copies, so they cannot be passed back.)
-/

namespace Argtable

/-- `s_module_name`, `s_mod_ver_tag` and `s_mod_ver` (arg_cmd.c:46, 50-51), `none` for NULL, and the heap.  The three
numbers of arg_cmd.c:47-49 are only used by the function that sets them. -/
structure ModMem where
  heap : Heap
  name : Option Nat
  tag : Option Nat
  ver : Option Nat
deriving DecidableEq, Repr

/-- The initial values.  (arg_cmd.c:45-51.) -/
def modMemInit (heap : Heap) : ModMem := { heap, name := none, tag := none, ver := none }

/-- `xfree(p)`, arg_utils.c:109-111: nothing for NULL. -/
def heapFreeOpt : Option Nat → Heap → M Heap
  | none, heap => .ok heap
  | some a, heap => heapFree a heap

/-- Writing bytes to a block from `off` on.  (the stores by `memset` and `memcpy` in arg_cmd.c:53-105.) -/
def heapStore (a off : Nat) (src : List Byte) (heap : Heap) : M Heap :=
  match heap[a]? with
  | some (some b) =>
    if off + src.length ≤ b.length then
      .ok (heap.set a (some (b.take off ++ src ++ b.drop (off + src.length))))
    else .error (.ub "write outside a block")
  | _ => .error (.ub "access to a block that is not allocated")

/-- The string in a block.  (as read in arg_cmd.c:221-233.) -/
def heapStr (a : Nat) (heap : Heap) : M CStr :=
  match heap[a]? with
  | some (some b) => scanStr b
  | _ => .error (.ub "access to a block that is not allocated")

/-- `xmalloc(slen + 1)`, `memset` to 0 and `memcpy` of `slen` bytes, as in arg_cmd.c:57-66, 77-86, 95-103. -/
def heapCopyStr (s : CStr) (heap : Heap) : M (Nat × Heap) := do
  let (a, heap) := heapMalloc (s.length + 1) heap
  let heap ← heapStore a 0 (List.replicate (s.length + 1) (some '\x00')) heap
  let heap ← heapStore a 0 (bytesOf s) heap
  .ok (a, heap)

/-- `arg_set_module_name` (arg_cmd.c:53-67). -/
def setModuleNameMem (name : CStr) (m : ModMem) : M ModMem := do
  let heap ← heapFreeOpt m.name m.heap
  let (a, heap) ← heapCopyStr name heap
  .ok { m with heap := heap, name := some a }

/-- `arg_set_module_version` (arg_cmd.c:69-105). -/
def setModuleVersionMem (major minor patch : Int) (tag : CStr) (m : ModMem) : M ModMem := do
  let heap ← heapFreeOpt m.tag m.heap
  let (t, heap) ← heapCopyStr tag heap
  let st := dstrCreate heap
  let st ← dsCatf 3 (decText major ++ cs ".") st
  let st ← dsCatf 3 (decText minor ++ cs ".") st
  let st ← dsCatf 3 (decText patch ++ cs ".") st
  let st ← dstrCat st ⟨.blk t, 0⟩
  let heap ← heapFreeOpt m.ver st.heap
  let st := { st with heap := heap }
  let s ← st.cstr (dstrCstr st)
  let (v, heap) ← heapCopyStr s st.heap
  let (heap, _) ← dstrDestroy { st with heap := heap }
  .ok { heap := heap, name := m.name, tag := some t, ver := some v }

/-- `module_name` (arg_cmd.c:221-226). -/
def moduleNameMem (m : ModMem) : M CStr :=
  match m.name with
  | none => .ok (cs "<name>")
  | some a => do
    let n ← heapStr a m.heap
    if n.length = 0 then .ok (cs "<name>") else .ok n

/-- `module_version` (arg_cmd.c:228-233). -/
def moduleVersionMem (m : ModMem) : M CStr :=
  match m.ver with
  | none => .ok (cs "0.0.0.0")
  | some a => do
    let v ← heapStr a m.heap
    if v.length = 0 then .ok (cs "0.0.0.0") else .ok v

end Argtable
