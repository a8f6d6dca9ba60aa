import Verif.Spec.Dstr
/-!
# Using several arg_dstr objects

A client has several objects at the same time and calls the functions of arg_dstr.c on them in any order.  All objects live
in one heap.  The string of one object may be appended to another one, or copied into it.
-/

namespace Argtable.Spec

/-- The memory, the objects in the order of their creation (`none`: destroyed), and the calls made to the client's `free_proc`
functions: for which object, which function, and the string it was given. -/
structure Shelf where
  heap : Heap
  objs : List (Option Dstr)
  log : List (Nat × Nat × CStr)
deriving DecidableEq

/-- One call. -/
inductive SCmd where
  /-- `arg_dstr_create` -/
  | create
  /-- a call on object `i` that does not involve other objects -/
  | call (i : Nat) (c : DCmd)
  /-- `arg_dstr_cat(ds_i, arg_dstr_cstr(ds_j))` -/
  | cat (i j : Nat)
  /-- `arg_dstr_set(ds_i, arg_dstr_cstr(ds_j), ARG_DSTR_VOLATILE)` -/
  | copy (i j : Nat)
  /-- `arg_dstr_destroy` -/
  | destroy (i : Nat)

/-- A function that is called on object `i`. -/
def Shelf.on (w : Shelf) (i : Nat) (f : DState → M DState) : M Shelf :=
  match w.objs[i]? with
  | some (some d) => do
    let st ← f { heap := w.heap, ds := d, log := [] }
    .ok { heap := st.heap, objs := w.objs.set i (some st.ds), log := w.log ++ st.log.map fun e => (i, e) }
  | _ => .error (.ub "an object that does not exist")

/-- A function that is called on an object and given the string of object `j`.  (In `DState` the buffer inside an object can
be pointed to only by that object: to another object it appears as a block.) -/
def Shelf.lend (w : Shelf) (j : Nat) (f : Ptr → DState → M DState) (st : DState) : M DState :=
  match w.objs[j]? with
  | some (some d) =>
    match d.data.loc with
    | .blk _ => f d.data st
    | .sbuf => do
      let (a, st) := st.malloc d.sbuf
      let st ← f ⟨.blk a, d.data.off⟩ st
      st.free ⟨.blk a, 0⟩
  | _ => .error (.ub "an object that does not exist")

/-- The call, with the client's part. -/
def SCmd.exec (w : Shelf) : SCmd → M Shelf
  | .create => .ok { w with objs := w.objs ++ [some (dstrCreate w.heap).ds] }
  | .call i c => w.on i fun st => c.exec st
  | .cat i j => w.on i (w.lend j fun p st => dstrCat st p)
  | .copy i j => w.on i (w.lend j fun p st => dstrSet st (some p) .volatile)
  | .destroy i =>
    match w.objs[i]? with
    | some (some d) => do
      let (heap, log) ← dstrDestroy { heap := w.heap, ds := d, log := [] }
      .ok { heap, objs := w.objs.set i none, log := w.log ++ log.map fun e => (i, e) }
    | _ => .error (.ub "an object that does not exist")

/-- All calls, in order. -/
def runAll (w : Shelf) : List SCmd → M Shelf
  | [] => .ok w
  | c :: cmds => do
    let w ← c.exec w
    runAll w cmds

/-! ### What is expected -/

/-- The text of object `i`, given the texts of all objects. -/
def stringOf (ts : List (Option CStr)) (i : Nat) : CStr := (ts[i]?.getD none).getD []

/-- Object `i` exists. -/
def Present (ts : List (Option CStr)) (i : Nat) : Prop := ∃ s, ts[i]? = some (some s)

/-- What the texts should be after a call. -/
def SCmd.after (ts : List (Option CStr)) : SCmd → List (Option CStr)
  | .create => ts ++ [some []]
  | .call i c => ts.set i (some (c.after (stringOf ts i)))
  | .cat i j => ts.set i (some (stringOf ts i ++ stringOf ts j))
  | .copy i j => ts.set i (some (stringOf ts j))
  | .destroy i => ts.set i none

/-- What the texts should be after all calls. -/
def texts (cmds : List SCmd) : List (Option CStr) := cmds.foldl SCmd.after []

/-- The call concerns objects that exist, does not pass an object its own string, and the text does not get too long for an
`int`. -/
def SCmd.Sensible (ts : List (Option CStr)) : SCmd → Prop
  | .create => True
  | .call i c => Present ts i ∧ c.Proper ∧ (stringOf ts i).length + c.size ≤ 500000000
  | .cat i j => Present ts i ∧ Present ts j ∧ i ≠ j ∧ (stringOf ts i).length + (stringOf ts j).length ≤ 500000000
  | .copy i j => Present ts i ∧ Present ts j ∧ i ≠ j
  | .destroy i => Present ts i

/-- All calls are sensible. -/
def AllSensible (ts : List (Option CStr)) : List SCmd → Prop
  | [] => True
  | c :: cmds => c.Sensible ts ∧ AllSensible (c.after ts) cmds

/-- The calls on object `i` alone. -/
def callsOn (i : Nat) : List SCmd → List DCmd
  | [] => []
  | .call k c :: cmds => if k = i then c :: callsOn i cmds else callsOn i cmds
  | _ :: cmds => callsOn i cmds

/-- The strings passed with `ARG_DSTR_STATIC`, to any object. -/
def SCmd.static : SCmd → List CStr
  | .call _ c => c.static
  | _ => []

/-- Object `i` is destroyed, or given the text of another object. -/
def SCmd.Touches (i : Nat) : SCmd → Prop
  | .cat k _ => k = i
  | .copy k _ => k = i
  | .destroy k => k = i
  | _ => False

end Argtable.Spec
