import Verif.Model.Print
import Verif.Model.Free
import Verif.Model.Parse
/-!
# The array of pointers that a table is

`Model/Print.lean` and `Model/Parse.lean` take the list of entries of a table.  Here the functions get what the client passes: an
array of pointers, each NULL or the address of an object.  The array may go on after the first `arg_end`, may have NULL entries, or
may have no `arg_end` at all.
-/

namespace Argtable

variable {σ : Type}

/-- An object in memory: one with an ordinary header, or one whose `hdr.flag` has `ARG_TERMINATOR` (an `arg_end`). -/
inductive TabObj (σ : Type) where
  | entry (h : Hdr σ)
  | fin (e : EndTbl)

/-- The objects in memory, by address.
(the objects that the constructors allocate, e.g. arg_int.c:257-289, and whose addresses are in `argtable`, argtable3.c:427-435.) -/
abbrev ObjMem (σ : Type) := Nat → Option (TabObj σ)

/-- What `arg_nullcheck`, `arg_free` and `arg_freetable` see of it (Model/Free). -/
def ObjMem.flags (mem : ObjMem σ) : FlagHeap := fun p =>
  (mem p).map fun | .entry _ => false | .fin _ => true

/-- `*p`.  (as in `table[tabindex]->…`, argtable3.c:228-233 and everywhere else a table is used.) -/
def deref (mem : ObjMem σ) (p : Nat) : M (TabObj σ) :=
  match mem p with
  | none => .error (.ub "use after free")
  | some x => .ok x

/-- The condition `table[i] && !(table[i]->flag & ARG_TERMINATOR)` of the loops of argtable3.c:671, 691, 721 and 784: the entry if
the loop goes on. -/
def softEntry (mem : ObjMem σ) (table : List (Option Nat)) (i : Nat) : M (Option (Hdr σ)) := do
  match ← slot table i with
  | none => .ok none
  | some p =>
    match ← deref mem p with
    | .entry h => .ok (some h)
    | .fin _ => .ok none

/-- The condition `!(table[i]->flag & ARG_TERMINATOR)` of the loops of argtable3.c:80, 139, 152, 196, 209, 230, 340, 414, 424, 841
and 993: the entry, or the terminator. -/
def hardEntry (mem : ObjMem σ) (table : List (Option Nat)) (i : Nat) : M (TabObj σ) := do
  match ← slot table i with
  | none => .error (.ub "NULL pointer in the table")
  | some p => deref mem p

/-- A loop of `arg_print_gnuswitch_ds`, argtable3.c:671-688 and 691-708, as `gnuswitchLoop` (Model/Print).  `fuel` bounds the
number of rounds; one per cell of the array is enough, since the next one would read beyond the array. -/
def gnuswitchTab (mem : ObjMem σ) (table : List (Option Nat)) (p : Hdr σ → Bool) : (fuel i : Nat) → (first : CStr) → M (CStr × Bool)
  | 0, _, _ => .error .fuel
  | fuel + 1, i, first => do
    match ← softEntry mem table i with
    | none => .ok ([], false)
    | some h =>
      if p h then
        let (r, _) ← gnuswitchTab mem table p fuel (i + 1) []
        .ok (first ++ shortHead h ++ r, true)
      else gnuswitchTab mem table p fuel (i + 1) first

/-- `arg_print_gnuswitch_ds`, argtable3.c:664-711. -/
def printGnuswitchTab (mem : ObjMem σ) (table : List (Option Nat)) : M CStr := do
  let (t1, any1) ← gnuswitchTab mem table (fun h => !(h.mincount < 1) && isSwitch h) (table.length + 1) 0 (cs " -")
  let (t2, any2) ← gnuswitchTab mem table (fun h => !(h.mincount > 0) && isSwitch h) (table.length + 1) 0
    (if any1 then cs "[" else cs " [-")
  .ok (t1 ++ t2 ++ (if any2 then cs "]" else []))

/-- The loop of `arg_print_syntax_ds`, argtable3.c:721-765. -/
def syntaxTab (mem : ObjMem σ) (table : List (Option Nat)) : (fuel i : Nat) → M CStr
  | 0, _ => .error .fuel
  | fuel + 1, i => do
    match ← softEntry mem table i with
    | none => .ok []
    | some h =>
      if isSwitch h then syntaxTab mem table fuel (i + 1)
      else
        let b ← catOption (syntaxBuf []) h.shortopts h.longopts h.datatype h.hasOptValue
        let syn := bufStr b.buf
        let r ← syntaxTab mem table fuel (i + 1)
        .ok ((if syn.length > 0 then instances syn h.mincount h.maxcount else []) ++ r)

/-- `arg_print_syntax_ds`, argtable3.c:713-770. -/
def printSyntaxTab (mem : ObjMem σ) (table : List (Option Nat)) (suffix : Option CStr) : M CStr := do
  let sw ← printGnuswitchTab mem table
  let body ← syntaxTab mem table (table.length + 1) 0
  .ok (sw ++ body ++ suffix.getD [])

/-- The loop of `arg_print_syntaxv_ds`, argtable3.c:784-822. -/
def syntaxvTab (mem : ObjMem σ) (table : List (Option Nat)) : (fuel i : Nat) → M CStr
  | 0, _ => .error .fuel
  | fuel + 1, i => do
    match ← softEntry mem table i with
    | none => .ok []
    | some h =>
      let b ← catOptionv (syntaxBuf []) h.shortopts h.longopts h.datatype h.hasOptValue (cs "|")
      let r ← syntaxvTab mem table fuel (i + 1)
      .ok (instances (bufStr b.buf) h.mincount h.maxcount ++ r)

/-- `arg_print_syntaxv_ds`, argtable3.c:779-827. -/
def printSyntaxvTab (mem : ObjMem σ) (table : List (Option Nat)) (suffix : Option CStr) : M CStr := do
  let body ← syntaxvTab mem table (table.length + 1) 0
  .ok (body ++ suffix.getD [])

/-- The loop of `arg_print_glossary_ds`, argtable3.c:841-851. -/
def glossaryTab (mem : ObjMem σ) (table : List (Option Nat)) (fmt2 : CStr → CStr → CStr) : (fuel i : Nat) → M CStr
  | 0, _ => .error .fuel
  | fuel + 1, i => do
    match ← hardEntry mem table i with
    | .fin _ => .ok []
    | .entry h =>
      match h.glossary with
      | none => glossaryTab mem table fmt2 fuel (i + 1)
      | some g => do
        let b ← catOptionv (syntaxBuf []) h.shortopts h.longopts h.datatype h.hasOptValue (cs ", ")
        let r ← glossaryTab mem table fmt2 fuel (i + 1)
        .ok (fmt2 (bufStr b.buf) g ++ r)

/-- `arg_print_glossary_ds`, argtable3.c:836-852. -/
def printGlossaryTab (mem : ObjMem σ) (table : List (Option Nat)) (fmt2 : CStr → CStr → CStr) : M CStr :=
  glossaryTab mem table fmt2 (table.length + 1) 0

/-- The loop of `arg_print_glossary_gnu_ds`, argtable3.c:993-1018.  `wfuel` is for the wrapping of lines. -/
def gnuTab (mem : ObjMem σ) (table : List (Option Nat)) (wfuel : Nat) : (fuel i : Nat) → M CStr
  | 0, _ => .error .fuel
  | fuel + 1, i => do
    match ← hardEntry mem table i with
    | .fin _ => .ok []
    | .entry h =>
      match h.glossary with
      | none => gnuTab mem table wfuel fuel (i + 1)
      | some g => do
        let e ← gnuEntry wfuel h g
        let r ← gnuTab mem table wfuel fuel (i + 1)
        .ok (e ++ r)

/-- `arg_print_glossary_gnu_ds`, argtable3.c:989-1021. -/
def printGlossaryGnuTab (mem : ObjMem σ) (table : List (Option Nat)) (wfuel : Nat) : M CStr := do
  let r ← gnuTab mem table wfuel (table.length + 1) 0
  .ok (r ++ cs "\n")

/-- The walk of `arg_reset` and `arg_endindex` over the array, argtable3.c:416-425 and 226-233: the entries met, and the
terminator. -/
def walkTab (mem : ObjMem σ) (table : List (Option Nat)) : (fuel i : Nat) → M (List (Hdr σ) × EndTbl)
  | 0, _ => .error .fuel
  | fuel + 1, i => do
    match ← hardEntry mem table i with
    | .fin e => .ok ([], e)
    | .entry h =>
      let (es, e) ← walkTab mem table fuel (i + 1)
      .ok (h :: es, e)

/-- `arg_parse`, argtable3.c:427-480.  Before anything else the function walks over the array up to the first terminator, in
`arg_reset` and again in `arg_endindex` (437-441).  What it does then, it does with the objects met on this walk: Model/Parse.
Simplification: the reset functions that ran before the walk meets a NULL pointer are not recorded. -/
def argParseTab (mem : ObjMem σ) (posixEnv : Bool) (fuel : Nat) (argv : List CStr) (table : List (Option Nat)) (g : GState) :
    M (Nat × Table σ × GState) := do
  let (es, e) ← walkTab mem table (table.length + 1) 0
  argParse posixEnv fuel argv ⟨es, e⟩ g

end Argtable
