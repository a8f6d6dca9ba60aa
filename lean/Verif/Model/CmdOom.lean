import Verif.Model.CmdMem
import Verif.Model.ModMem
import Verif.Model.DstrOom
/-!
# The command registry and the module settings when memory runs out (arg_cmd.c, arg_hashtable.c)

The functions of Model/CmdMem.lean and Model/ModMem.lean that allocate memory once more; as in Model/DstrOom.lean, a run
that ends in the panic function shows what things are like by then.
-/

namespace Argtable

variable {κ ν P C : Type}

/-! ### The registry -/

/-- Which of the allocations of `arg_cmd_register` succeed: of the `arg_cmd_info_t` (arg_cmd.c:149), of the copy of the name
(arg_cmd.c:164), of a larger bucket array (arg_hashtable.c:152), of the entry (arg_hashtable.c:191). -/
structure Room where
  info : Bool
  key : Bool
  array : Bool
  entry : Bool
deriving DecidableEq, Repr

/-- `arg_hashtable_expand` (arg_hashtable.c:139-172).  The index into the table of primes is advanced before the memory is
requested. -/
def hashExpandOom (room : Room) (f : HFns κ) (t : HTab κ ν) : OM (HTab κ ν) (HTab κ ν) :=
  if t.primeindex = primes.length - 1 then .ok t
  else
    match primes[t.primeindex + 1]? with
    | none => .error (.fault (.ub "read past the table of primes"))
    | some newsize =>
      let t := { t with primeindex := t.primeindex + 1 }
      if room.array then up do
        let (newtable, mem) ← moveAll newsize (t.fresh + 1) t.tablelength 0 t.table (List.replicate newsize none) t.mem
        pure { t with table := newtable, mem := mem, tablelength := newsize, loadlimit := f.limit newsize }
      else .error (.panic t)

/-- `arg_hashtable_insert` (arg_hashtable.c:178-199). -/
def hashInsertOom (room : Room) (f : HFns κ) (t : HTab κ ν) (k : κ) (v : ν) : OM (HTab κ ν) (HTab κ ν) := do
  let t ← if t.entrycount + 1 > t.loadlimit then hashExpandOom room f t else .ok t
  if room.entry then up do
    let h := enhancedHash f k
    let index ← indexFor t.tablelength h
    let head ← tableGet t.table index
    let table ← tableSet t.table index (some t.fresh)
    pure
      { t with
        table := table
        mem := memSet t.mem t.fresh (some { k := k, v := v, h := h, next := head })
        fresh := t.fresh + 1
        entrycount := t.entrycount + 1 }
  else .error (.panic t)

/-- `arg_cmd_register` (arg_cmd.c:132-174). -/
def memRegisterOom (room : Room) (limit : Nat → Nat) (name : StrPtr) (proc : Option P) (description : StrPtr) (ctx : C)
    (s : RegMem P C) : OM (RegMem P C) (RegMem P C) := do
  let n ← up (readPtr s name)
  if ¬ n.length < ARG_CMD_NAME_LEN then .error (.fault (.ub "assertion: name too long")) else
  let d ← up (readPtr s description)
  if ¬ d.length < ARG_CMD_DESCRIPTION_LEN then .error (.fault (.ub "assertion: description too long")) else
  let t ← up s.get
  let info ← up (hashSearch (cmdMemFns limit) t ⟨0, n⟩)
  let t ← up (if info.isSome then hashRemove (cmdMemFns limit) t ⟨0, n⟩ else .ok t)
  let s := { s with tab := some t }
  if ¬ room.info then .error (.panic s) else
  let infoAddr := s.next
  let s := { s with next := s.next + 1 }
  let n ← up (readPtr s name)
  let d ← up (readPtr s description)
  if ¬ room.key then .error (.panic s) else
  let keyAddr := s.next
  let s := { s with next := s.next + 1 }
  let k ← up (readPtr s name)
  let t ← within (fun t => { s with tab := some t }) (hashInsertOom room (cmdMemFns limit) t ⟨keyAddr, k⟩
    ⟨infoAddr, { name := n, description := d, proc := proc, ctx := ctx }⟩)
  .ok { s with tab := some t }

/-! ### The module settings -/

/-- `xmalloc(slen + 1)`, `memset` to 0 and `memcpy` of `slen` bytes, as in arg_cmd.c:57-66, 77-86, 95-103. -/
def heapCopyStrOom (sup : Supply) (s : CStr) (heap : Heap) : OM Heap (Nat × Heap) :=
  if sup.malloc heap (s.length + 1) then up (heapCopyStr s heap) else .error (.panic heap)

/-- `arg_set_module_name` (arg_cmd.c:53-67).  The old string is freed first; `s_module_name` gets its new value after the
allocation only. -/
def setModuleNameOom (sup : Supply) (name : CStr) (m : ModMem) : OM ModMem ModMem := do
  let heap ← up (heapFreeOpt m.name m.heap)
  let (a, heap) ← within (fun heap => { m with heap := heap }) (heapCopyStrOom sup name heap)
  .ok { m with heap := heap, name := some a }

/-- `arg_set_module_version` (arg_cmd.c:69-105).  The object is `objSize` bytes large. -/
def setModuleVersionOom (sup : Supply) (objSize : Nat) (major minor patch : Int) (tag : CStr) (m : ModMem) :
    OM ModMem ModMem := do
  let heap ← up (heapFreeOpt m.tag m.heap)
  let (t, heap) ← within (fun heap => { m with heap := heap }) (heapCopyStrOom sup tag heap)
  let m := { m with tag := some t }
  let st ← within (fun heap => { m with heap := heap }) (dstrCreateOom sup objSize heap)
  let st ← within (fun st => { m with heap := st.heap }) do
    let st ← dstrCatfOom sup st (some 3) (decText major ++ cs ".")
    let st ← dstrCatfOom sup st (some 3) (decText minor ++ cs ".")
    let st ← dstrCatfOom sup st (some 3) (decText patch ++ cs ".")
    dstrCatOom sup st ⟨.blk t, 0⟩
  let heap ← up (heapFreeOpt m.ver st.heap)
  let st := { st with heap := heap }
  let s ← up (st.cstr (dstrCstr st))
  let (v, heap) ← within (fun heap => { m with heap := heap }) (heapCopyStrOom sup s st.heap)
  let (heap, _) ← up (dstrDestroy { st with heap := heap })
  .ok { m with heap := heap, ver := some v }

end Argtable
