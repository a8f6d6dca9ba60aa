import Verif.Model.Hash

/-!
# Model of the command registry in src/arg_cmd.c

Command procedures and contexts are arbitrary types `P` and `C`.  A name passed to
`arg_cmd_register` is taken by value: the call in which the caller passes the registry's own copy of
the name (obtained from `arg_cmd_itr_key` or `arg_cmd_info`), which is freed in the middle of the
function, is covered by `Model/CmdMem`.
-/

namespace Argtable

variable {P C : Type}

/-- `arg_cmd_info_t` (argtable3.h:209-214).  `proc` is `none` for NULL. -/
structure CmdInfo (P C : Type) where
  name : CStr
  description : CStr
  proc : Option P
  ctx : C
deriving DecidableEq, Repr

/-- argtable3.h:46 -/
def ARG_CMD_NAME_LEN : Nat := 100
/-- argtable3.h:52 -/
def ARG_CMD_DESCRIPTION_LEN : Nat := 256

/-- `hash_key` (arg_cmd.c:107-116), with signed `char`. -/
def hashKey (s : CStr) : UInt32 :=
  s.foldl (fun hash c => ((hash <<< 5) + hash) + UInt32.ofInt (charInt c)) 5381

/-- `equal_keys` (arg_cmd.c:118-122): `strcmp(k1, k2) == 0`. -/
def equalKeys (a b : CStr) : Bool := a == b

/-- The functions of the registry's table (arg_cmd.c:125). -/
def cmdFns (limit : Nat → Nat) : HFns CStr := { hashfn := hashKey, eqfn := equalKeys, limit := limit }

/-- The static variable `s_hashtable` (arg_cmd.c:45): initially NULL, a table, or a pointer to a
destroyed table. -/
inductive Registry (P C : Type) where
  | null
  | table (t : HTab CStr (CmdInfo P C))
  | dangling

/-- Using the table behind `s_hashtable`.
(`s_hashtable` is dereferenced in arg_hashtable.c:174-246, called from arg_cmd.c:132-219.) -/
def Registry.get : Registry P C → M (HTab CStr (CmdInfo P C))
  | .null => throw (.ub "null table")
  | .table t => pure t
  | .dangling => throw (.ub "use of a destroyed table")

/-- `arg_cmd_init` (arg_cmd.c:124-126).  An earlier table is leaked. -/
def cmdInit (limit : Nat → Nat) : Registry P C :=
  match hashCreate (cmdFns limit) 32 with
  | none => .null
  | some t => .table t

/-- `arg_cmd_uninit` (arg_cmd.c:128-130): the variable keeps its value. -/
def cmdUninit (r : Registry P C) : M (Registry P C) := do
  let t ← r.get
  let _ ← hashDestroy t true
  pure .dangling

/-- `arg_cmd_register` (arg_cmd.c:132-174).  A failed assertion is a fault.  The copies into the
zeroed buffers `name[100]` and `description[256]` are complete because of the assertions. -/
def cmdRegister (limit : Nat → Nat) (r : Registry P C) (name : CStr) (proc : Option P)
    (description : CStr) (ctx : C) : M (Registry P C) := do
  if ¬ name.length < ARG_CMD_NAME_LEN then throw (.ub "assertion: name too long") else
  if ¬ description.length < ARG_CMD_DESCRIPTION_LEN then throw (.ub "assertion: description too long") else
  let t ← r.get
  let info ← hashSearch (cmdFns limit) t name
  let t ← if info.isSome then hashRemove (cmdFns limit) t name else pure t
  let t ← hashInsert (cmdFns limit) t name
    { name := name, description := description, proc := proc, ctx := ctx }
  pure (.table t)

/-- `arg_cmd_unregister` (arg_cmd.c:176-178). -/
def cmdUnregister (limit : Nat → Nat) (r : Registry P C) (name : CStr) : M (Registry P C) := do
  let t ← r.get
  let t ← hashRemove (cmdFns limit) t name
  pure (.table t)

/-- `arg_cmd_info` (arg_cmd.c:189-191). -/
def cmdInfo (limit : Nat → Nat) (r : Registry P C) (name : CStr) : M (Option (CmdInfo P C)) := do
  let t ← r.get
  hashSearch (cmdFns limit) t name

/-- `arg_cmd_dispatch` (arg_cmd.c:180-187): the procedure and the context it is called with; the
other arguments are passed through unchanged.  Failed assertions are faults. -/
def cmdDispatch (limit : Nat → Nat) (r : Registry P C) (name : CStr) : M (P × C) := do
  match ← cmdInfo limit r name with
  | none => throw (.ub "assertion: no such command")
  | some info =>
    match info.proc with
    | none => throw (.ub "assertion: no procedure")
    | some p => pure (p, info.ctx)

/-- `arg_cmd_count` (arg_cmd.c:193-195). -/
def cmdCount (r : Registry P C) : M Nat := do
  let t ← r.get
  pure (hashCount t)

end Argtable
