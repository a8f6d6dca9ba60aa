import Verif.Model.ParseMem
import Verif.Model.Stream
import Verif.Model.Free
import Verif.Model.Layout
import Verif.Model.Objects
/-!
# A program that uses the library

The parts of the model are put together: a program makes tables of objects, parses command lines, prints and frees, in
any order, with one memory (`Heap`) for everything.

Each object is one block of memory; its address in the array `argtable` is the number of the block, and `addr` is the
machine address of each block.  The contents of the objects are those of `Model/Objects.lean`; they are not laid out in
the bytes of the block.
-/

namespace Argtable

variable {δ : Type}

/-- A call of one of the constructors.  (the constructors of argtable3.h:272-373.) -/
inductive Maker where
  | lit (so lo : Option CStr) (mn mx : Int) (gl : Option CStr)
  | int (so lo dt : Option CStr) (mn mx : Int) (gl : Option CStr)
  | dbl (so lo dt : Option CStr) (mn mx : Int) (gl : Option CStr)
  | str (so lo dt : Option CStr) (mn mx : Int) (gl : Option CStr)
  | file (so lo dt : Option CStr) (mn mx : Int) (gl : Option CStr)
  | date (so lo fm dt : Option CStr) (mn mx : Int) (gl : Option CStr)
  | rex (so lo : Option CStr) (pat : CStr) (dt : Option CStr) (mn mx : Int) (ic : Bool) (gl : Option CStr)
  | rem (dt gl : Option CStr)

/-- The size of the block: `nbytes` of the constructors (arg_lit.c:98, arg_int.c:264-267, arg_dbl.c:124-129,
arg_str.c:114-119, arg_file.c:170-175, arg_date.c:133-138, arg_rex.c:243-248, arg_rem.c:42). -/
def Maker.size (a : Abi) : Maker → Nat
  | .lit _ _ _ _ _ => (litBlock a 0).size
  | .int _ _ _ mn mx _ => (intBlock a 0 (foolproof mn mx)).size
  | .dbl _ _ _ mn mx _ => (dblBlock a 0 (foolproof mn mx)).size
  | .str _ _ _ mn mx _ => (strBlock a 0 (foolproof mn mx)).size
  | .file _ _ _ mn mx _ => (fileBlock a 0 (foolproof mn mx)).size
  | .date _ _ _ _ mn mx _ => (dateBlock a 0 (foolproof mn mx)).size
  | .rex _ _ _ _ mn mx _ _ => (rexBlock a 0 (foolproof mn mx)).size
  | .rem _ _ => (remBlock a 0).size

/-- The object that the constructor makes, at the address `addr` (`Model/Objects.lean`).  (e.g. arg_int.c:257-289.) -/
def Maker.header (lc : Libc δ) (a : Abi) (addr : Nat) : Maker → M (Hdr (Obj δ))
  | .lit so lo mn mx gl => .ok (argLitn so lo mn mx gl)
  | .int so lo dt mn mx gl => argIntn so lo dt mn mx gl
  | .dbl so lo dt mn mx gl => argDbln lc (addr + a.argDbl) so lo dt mn mx gl
  | .str so lo dt mn mx gl => argStrn so lo dt mn mx gl
  | .file so lo dt mn mx gl => argFilen so lo dt mn mx gl
  | .date so lo fm dt mn mx gl => argDaten lc so lo fm dt mn mx gl
  | .rex so lo pat dt mn mx ic gl => argRexn so lo pat dt mn mx ic gl
  | .rem dt gl => .ok (argRem dt gl)

/-- The scan function of the object, with its use of memory (`Model/RexMem.lean` for `arg_rex_scanfn`; the others
allocate nothing). -/
def Maker.scan (h : Hdr (Obj δ)) : Maker → Option (ScanFn (Obj δ))
  | .rex _ _ pat _ _ _ ic _ => some fun
    | .rex o, a, heap => do
      let ((o, e), heap) ← rexScanMem pat ic h.maxcount o a heap
      .ok ((.rex o, e), heap)
    | _, _, _ => confused
  | _ => h.scanfn.map fun f p a heap => do
      let r ← f p a
      .ok (r, heap)

/-- The error function of the object, with its use of memory (`Model/Stream.lean`).  (e.g. arg_int.c:216-247.) -/
def Maker.err (lc : Libc δ) (h : Hdr (Obj δ)) : Maker → Option (ErrFn (Obj δ))
  | .lit _ _ _ _ _ => some fun _ => litErrorDs h.shortopts h.longopts h.datatype
  | .int _ _ _ _ _ _ => some fun _ => intErrorDs h.shortopts h.longopts h.datatype
  | .dbl _ _ _ _ _ _ => some fun _ => dblErrorDs h.shortopts h.longopts h.datatype
  | .str _ _ _ _ _ _ => some fun _ => strErrorDs h.shortopts h.longopts h.datatype
  | .file _ _ _ _ _ _ => some fun _ => fileErrorDs h.shortopts h.longopts h.datatype
  | .date _ _ fm _ _ _ _ => some fun _ => dateErrorDs lc.sample (fm.getD (cs "%x")) h.shortopts h.longopts h.datatype
  | .rex _ _ _ _ _ _ _ _ => some fun _ => rexErrorDs h.shortopts h.longopts h.datatype
  | .rem _ _ => none

/-- The constructors as far as memory goes: one allocation, and for `arg_rexn` the compilation of the pattern
(arg_rex.c:276-288). -/
def Maker.make (lc : Libc δ) (a : Abi) (addr : Nat → Nat) (m : Maker) (heap : Heap) :
    M ((Nat × Hdr (Obj δ)) × Heap) := do
  let (p, heap) := heapMalloc (m.size a) heap
  let h ← m.header lc a (addr p)
  match m with
  | .rex _ _ pat _ _ _ _ _ => do
    let (_, heap) ← rexTryMem pat heap
    .ok ((p, h), heap)
  | _ => .ok ((p, h), heap)

/-- The constructors of a table, one after the other.
(the program's own initialiser of `argtable`; each entry as in e.g. arg_int.c:257-289.) -/
def makeAll (lc : Libc δ) (a : Abi) (addr : Nat → Nat) : List Maker → Heap → M (List (Nat × Hdr (Obj δ)) × Heap)
  | [], heap => .ok ([], heap)
  | m :: ms, heap => do
    let (x, heap) ← m.make lc a addr heap
    let (xs, heap) ← makeAll lc a addr ms heap
    .ok (x :: xs, heap)

/-- A table of the program: the array of pointers, the last of which is that of the `arg_end`, and the objects that
they point to.  `makers` and `maxerr` (the parameter of `arg_end`) only record how it was made. -/
structure LTable (δ : Type) where
  makers : List Maker
  maxerr : Int
  ptrs : List (Option Nat)
  t : Table (Obj δ)
  scan : List (Option (ScanFn (Obj δ)))
  err : List (Option (ErrFn (Obj δ)))

/-- The state of the program: memory, what was printed, getopt's variables, the value that the last `arg_parse`
returned, and the tables in the order of their construction. -/
structure World (δ : Type) where
  heap : Heap
  out : CStr
  g : GState
  ret : Nat
  tables : List (LTable δ)

/-- What the program does next.  `make`: it calls the constructors and `arg_end(maxerr)`; `junk` is the content of the
memory that `arg_end` leaves uninitialised.  `preset`: it writes to members of the objects.  The others are calls of
the function with the corresponding name, for table number `i`; `fuel` bounds the length of the descriptions. -/
inductive LifeOp (δ : Type) where
  | make (ms : List Maker) (maxerr : Int) (junk : ErrRec) (junkCount : Nat)
  | preset (i : Nat) (es : List (Hdr (Obj δ)))
  | parse (i : Nat) (argv : List CStr)
  | syntax (i : Nat) (suffix : Option CStr)
  | syntaxv (i : Nat) (suffix : Option CStr)
  | glossary (i : Nat) (fmtlen : Nat) (fmt2 : CStr → CStr → CStr)
  | glossaryGnu (i : Nat) (fuel : Nat)
  | errors (i : Nat) (prog : CStr)
  | freetable (i : Nat)
  | free (i : Nat)

/-- The functions that take a table follow each of its pointers, up to the `arg_end` (e.g. `arg_reset`,
argtable3.c:417-425). -/
def touchAll : List (Option Nat) → Heap → M Unit
  | [], _ => .ok ()
  | none :: _, _ => .error (.ub "NULL pointer in the table")
  | some p :: ps, heap => do
    heapTouch p heap
    touchAll ps heap

/-- The flags of the objects as `arg_free` and `arg_nullcheck` see them: the last pointer is that of the `arg_end`. -/
def flagsOf (ptrs : List (Option Nat)) (heap : Heap) : FlagHeap := fun p =>
  match heap[p]? with
  | some (some _) => some (decide (ptrs.getLast? = some (some p)))
  | _ => none

/-- A function that frees (`Model/Free.lean`), at work on the memory.
(`arg_free` and `arg_freetable`, argtable3.c:1063-1097.) -/
def freeWith (f : FreeState → M FreeState) (ptrs : List (Option Nat)) (heap : Heap) : M (List (Option Nat) × Heap) := do
  let s ← f ⟨ptrs, flagsOf ptrs heap, []⟩
  let heap ← s.freed.foldlM (fun heap p => heapFree p heap) heap
  .ok (s.table, heap)

/-- Table number `i`.  (a `void** argtable` of the program, argtable3.c:427.) -/
def World.table (w : World δ) (i : Nat) : M (LTable δ) :=
  match w.tables[i]? with
  | some T => .ok T
  | none => .error (.ub "no such table")

/-- One step of the program.  (a call of one of the functions of argtable3.h:272-551.) -/
def lifeStep (lc : Libc δ) (a : Abi) (addr : Nat → Nat) (env : Bool) (fuel : Nat) (w : World δ) : LifeOp δ → M (World δ)
  | .make ms maxerr junk junkCount => do
    let (xs, heap) ← makeAll lc a addr ms w.heap
    let (p, heap) := heapMalloc (endBlock a 0 maxerr).size heap
    let fin ← argEnd maxerr junk junkCount
    let hs := xs.map (·.2)
    .ok { w with
      heap
      tables := w.tables ++ [{
        makers := ms, maxerr, ptrs := xs.map (fun x => some x.1) ++ [some p], t := ⟨hs, fin⟩,
        scan := List.zipWith (fun m h => m.scan h) ms hs, err := List.zipWith (fun m h => m.err lc h) ms hs }] }
  | .preset i es => do
    let T ← w.table i
    touchAll T.ptrs w.heap
    .ok { w with tables := w.tables.set i { T with t := { T.t with entries := es } } }
  | .parse i argv => do
    let T ← w.table i
    touchAll T.ptrs w.heap
    let ((n, t, g), heap) ← argParseMem T.scan env fuel argv T.t w.g w.heap
    .ok { w with heap, g, ret := n, tables := w.tables.set i { T with t } }
  | .syntax i suffix => do
    let T ← w.table i
    touchAll T.ptrs w.heap
    let (heap, out) ← printSyntaxTo T.t.entries suffix w.heap w.out
    .ok { w with heap, out }
  | .syntaxv i suffix => do
    let T ← w.table i
    touchAll T.ptrs w.heap
    let (heap, out) ← printSyntaxvTo T.t.entries suffix w.heap w.out
    .ok { w with heap, out }
  | .glossary i fmtlen fmt2 => do
    let T ← w.table i
    touchAll T.ptrs w.heap
    let (heap, out) ← printGlossaryTo fmtlen fmt2 T.t.entries w.heap w.out
    .ok { w with heap, out }
  | .glossaryGnu i fuel => do
    let T ← w.table i
    touchAll T.ptrs w.heap
    let (heap, out) ← printGlossaryGnuTo fuel T.t.entries w.heap w.out
    .ok { w with heap, out }
  | .errors i prog => do
    let T ← w.table i
    touchAll T.ptrs w.heap
    let (heap, out) ← printErrorsTo T.t T.err prog w.heap w.out
    .ok { w with heap, out }
  | .freetable i => do
    let T ← w.table i
    let (ptrs, heap) ← freeWith (argFreetable T.ptrs.length) T.ptrs w.heap
    .ok { w with heap, tables := w.tables.set i { T with ptrs } }
  | .free i => do
    let T ← w.table i
    let (ptrs, heap) ← freeWith argFree T.ptrs w.heap
    .ok { w with heap, tables := w.tables.set i { T with ptrs } }

end Argtable
