import Verif.Model.Cmd
/-!
# The command registry and its memory blocks (arg_cmd.c)

`Model/Cmd` takes names and descriptions by value.  Here every string argument is a pointer, which may point into
one of the registry's own blocks: `arg_cmd_info`, `arg_cmd_itr_key` and `arg_cmd_itr_value` hand out such pointers.
Reading a string through a pointer into a block that was freed is a fault.

A block is its address together with its contents: the registry never writes to a block again after it has been
inserted in the table.  The caller, who could write through the pointers handed out, is assumed not to.  Addresses are
never reused.
-/

namespace Argtable

variable {P C : Type}

/-- A block obtained from `xmalloc`, with its contents.  (arg_cmd.c:149-171.) -/
structure Blk (α : Type) where
  addr : Nat
  val : α
deriving DecidableEq, Repr

/-- A `const char*` argument: the string it points to, and the block of the registry in which that string lies;
`none` if it lies in memory of the caller.  (the arguments of arg_cmd.c:132-191.) -/
structure StrPtr where
  text : CStr
  home : Option Nat
deriving DecidableEq, Repr

/-- The functions of the registry's table (arg_cmd.c:107-126) look at the strings only. -/
def cmdMemFns (limit : Nat → Nat) : HFns (Blk CStr) :=
  { hashfn := fun k => hashKey k.val, eqfn := fun a b => equalKeys a.val b.val, limit := limit }

/-- The table: its keys and values are pointers to blocks.  (`s_hashtable`, arg_cmd.c:45, 124-130.) -/
abbrev CmdTab (P C : Type) := HTab (Blk CStr) (Blk (CmdInfo P C))

/-- `s_hashtable` (arg_cmd.c:45), the next unused address, and the addresses passed to `xfree` by tables that have
been destroyed. -/
structure RegMem (P C : Type) where
  tab : Option (CmdTab P C)
  next : Nat
  past : List Nat

/-- The address of a block.  (for the comparison of the blocks freed in arg_hashtable.c:218-276.) -/
def addrOf : Blk CStr ⊕ Blk (CmdInfo P C) → Nat
  | .inl b => b.addr
  | .inr b => b.addr

/-- The addresses of all blocks that were passed to `xfree` so far.
(`xfree` is called in arg_hashtable.c:238-240 and 248-276.) -/
def RegMem.released (s : RegMem P C) : List Nat :=
  s.past ++ (match s.tab with
    | none => []
    | some t => t.freed.map addrOf)

/-- Using `s_hashtable`: NULL, or the table (`none` also stands for the dangling pointer after
`arg_cmd_uninit`). -/
def RegMem.get (s : RegMem P C) : M (CmdTab P C) :=
  match s.tab with
  | none => .error (.ub "no command table")
  | some t => .ok t

/-- Reading the string behind an argument.  (`hash_key` and `equal_keys` read their argument, arg_cmd.c:107-122.) -/
def readPtr (s : RegMem P C) (p : StrPtr) : M CStr :=
  match p.home with
  | none => .ok p.text
  | some a => if a ∈ s.released then .error (.ub "read from a freed block") else .ok p.text

/-- `arg_cmd_init` (arg_cmd.c:124-126). -/
def memInit (limit : Nat → Nat) : RegMem P C :=
  { tab := hashCreate (cmdMemFns limit) 32, next := 0, past := [] }

/-- `arg_cmd_uninit` (arg_cmd.c:128-130). -/
def memUninit (s : RegMem P C) : M (RegMem P C) := do
  let t ← s.get
  let (_, freed) ← hashDestroy t true
  .ok { s with tab := none, past := s.past ++ freed.map addrOf }

/-- `arg_cmd_register` (arg_cmd.c:132-174).  The strings are read where the function reads them: for the assertions
(137-138), for the search and the removal (143-145), and again after the removal for the copies (156-157, 163-171). -/
def memRegister (limit : Nat → Nat) (name : StrPtr) (proc : Option P) (description : StrPtr) (ctx : C)
    (s : RegMem P C) : M (RegMem P C) := do
  let n ← readPtr s name
  if ¬ n.length < ARG_CMD_NAME_LEN then .error (.ub "assertion: name too long") else
  let d ← readPtr s description
  if ¬ d.length < ARG_CMD_DESCRIPTION_LEN then .error (.ub "assertion: description too long") else
  let t ← s.get
  let info ← hashSearch (cmdMemFns limit) t ⟨0, n⟩
  let t ← if info.isSome then hashRemove (cmdMemFns limit) t ⟨0, n⟩ else .ok t
  let s := { s with tab := some t }
  let infoAddr := s.next
  let n ← readPtr s name
  let d ← readPtr s description
  let keyAddr := s.next + 1
  let k ← readPtr s name
  let t ← hashInsert (cmdMemFns limit) t ⟨keyAddr, k⟩
    ⟨infoAddr, { name := n, description := d, proc := proc, ctx := ctx }⟩
  .ok { s with tab := some t, next := s.next + 2 }

/-- `arg_cmd_unregister` (arg_cmd.c:176-178).  `arg_hashtable_remove` does not look at the name any more once it has
freed the entry (arg_hashtable.c:233-245). -/
def memUnregister (limit : Nat → Nat) (name : StrPtr) (s : RegMem P C) : M (RegMem P C) := do
  let n ← readPtr s name
  let t ← s.get
  let t ← hashRemove (cmdMemFns limit) t ⟨0, n⟩
  .ok { s with tab := some t }

/-- `arg_cmd_info` (arg_cmd.c:189-191): a pointer to the block itself. -/
def memInfo (limit : Nat → Nat) (name : StrPtr) (s : RegMem P C) : M (Option (Blk (CmdInfo P C))) := do
  let n ← readPtr s name
  let t ← s.get
  hashSearch (cmdMemFns limit) t ⟨0, n⟩

/-- `arg_cmd_itr_create` (arg_cmd.c:197-199). -/
def cmdItrCreate (s : RegMem P C) : M HItr := do
  itrCreate (← s.get)

/-- `arg_cmd_itr_advance` (arg_cmd.c:201-203). -/
def cmdItrAdvance (s : RegMem P C) (it : HItr) : M (HItr × Int) := do
  itrAdvance (← s.get) it

/-- `arg_cmd_itr_key` (arg_cmd.c:205-207): a pointer to the registry's copy of the name. -/
def cmdItrKey (s : RegMem P C) (it : HItr) : M (Blk CStr) := do
  itrKey (← s.get) it

/-- `arg_cmd_itr_value` (arg_cmd.c:209-211). -/
def cmdItrValue (s : RegMem P C) (it : HItr) : M (Blk (CmdInfo P C)) := do
  itrValue (← s.get) it

/-- `arg_cmd_itr_search` (arg_cmd.c:217-219). -/
def cmdItrSearch (limit : Nat → Nat) (s : RegMem P C) (it : HItr) (k : StrPtr) : M (HItr × Int) := do
  let n ← readPtr s k
  itrSearch (cmdMemFns limit) (← s.get) it ⟨0, n⟩

/-- `arg_cmd_count` (arg_cmd.c:193-195). -/
def memCount (s : RegMem P C) : M Nat := do
  let t ← s.get
  .ok (hashCount t)

end Argtable
