import Verif.Base
/-!
# Pointer tables: `arg_nullcheck`, `arg_free`, `arg_freetable`

The table is the array of pointers itself.  A pointer is NULL (`none`) or the address of an object; the
heap maps the address of each allocated object to whether its `hdr.flag` has `ARG_TERMINATOR`.
-/

namespace Argtable

/-- The heap as far as these functions look at it: for the address of an allocated object, whether
`hdr.flag & ARG_TERMINATOR` (argtable3.h:104-118). -/
abbrev FlagHeap := Nat → Option Bool

/-- `table[i]` within the array; reading beyond it is undefined.  (argtable3.c:1063-1097.) -/
def slot (table : List (Option Nat)) (i : Nat) : M (Option Nat) :=
  match table[i]? with
  | none => .error (.ub "argtable index out of range")
  | some p => .ok p

/-- `p->flag & ARG_TERMINATOR`; undefined for a dangling pointer.  (argtable3.c:1078-1082.) -/
def termFlag (heap : FlagHeap) (p : Nat) : M Bool :=
  match heap p with
  | none => .error (.ub "use after free")
  | some b => .ok b

/-- The loop of `arg_nullcheck`, argtable3.c:1042-1047; `fuel` bounds the number of rounds. -/
def nullcheckLoop (heap : FlagHeap) (table : List (Option Nat)) : (fuel i : Nat) → M Int
  | 0, _ => .error .fuel
  | fuel + 1, i => do
    match ← slot table i with
    | none => .ok 1
    | some p => if ← termFlag heap p then .ok 0 else nullcheckLoop heap table fuel (i + 1)

/-- `arg_nullcheck`, argtable3.c:1034-1050; `none` is a NULL table.  One round per array cell is
enough, since the next one would read beyond the array. -/
def argNullcheck (heap : FlagHeap) : Option (List (Option Nat)) → M Int
  | none => .ok 1
  | some table => nullcheckLoop heap table (table.length + 1) 0

/-- What the two functions change: the array, the heap, and the addresses passed to `free` so far.
(argtable3.c:1063-1097.) -/
structure FreeState where
  table : List (Option Nat)
  heap : FlagHeap
  freed : List Nat

/-- `xfree(p)`, arg_utils.c:109-111: undefined unless `p` is the address of an allocated object. -/
def xfreeObj (s : FreeState) (p : Nat) : M FreeState :=
  match s.heap p with
  | none => .error (.ub "double free")
  | some _ => .ok { s with heap := fun q => if q = p then none else s.heap q, freed := s.freed ++ [p] }

/-- `table[i] = NULL`.  (argtable3.c:1080 and 1095.) -/
def clearSlot (s : FreeState) (i : Nat) : FreeState := { s with table := s.table.set i none }

/-- The loop of `arg_free`, argtable3.c:1067-1082. -/
def argFreeLoop : (fuel i : Nat) → FreeState → M FreeState
  | 0, _, _ => .error .fuel
  | fuel + 1, i, s => do
    match ← slot s.table i with
    | none => .ok s
    | some p =>
      let flag ← termFlag s.heap p
      let s ← xfreeObj s p
      let s := clearSlot s i
      if flag then .ok s else argFreeLoop fuel (i + 1) s

/-- `arg_free`, argtable3.c:1063-1083. -/
def argFree (s : FreeState) : M FreeState := argFreeLoop (s.table.length + 1) 0 s

/-- The loop of `arg_freetable`, argtable3.c:1090-1096: `k` rounds to go, at index `i`. -/
def argFreetableLoop : (k i : Nat) → FreeState → M FreeState
  | 0, _, s => .ok s
  | k + 1, i, s => do
    match ← slot s.table i with
    | none => argFreetableLoop k (i + 1) s
    | some p =>
      let s ← xfreeObj s p
      argFreetableLoop k (i + 1) (clearSlot s i)

/-- `arg_freetable(table, n)`, argtable3.c:1086-1097. -/
def argFreetable (n : Nat) (s : FreeState) : M FreeState := argFreetableLoop n 0 s

end Argtable
