import Verif.Model.Life
import Verif.Model.ParseOom
/-!
# Constructing a table when memory runs out

The constructors of Model/Life.lean once more.  `Supply` (Model/ParseOom.lean) says which allocations succeed; if one does
not, then the panic function is called and does not return (it may jump back into the program).
-/

namespace Argtable

variable {δ : Type}

/-- The compilation in `arg_rexn`, arg_rex.c:276-288. -/
def rexTryOom (sup : Supply) (pattern : CStr) (heap : Heap) : OM Heap (Bool × Heap) := do
  let (rex, heap) ← rexCompileOom sup pattern heap
  let heap ← up (rexFree rex heap)
  .ok (rex.isSome, heap)

/-- The constructors (arg_lit.c:92-119, arg_int.c:257-289, arg_dbl.c:117-159, arg_str.c:107-146, arg_file.c:164-208,
arg_date.c:122-164, arg_rex.c:220-293, arg_rem.c:41-59) as far as memory goes: one allocation, and for `arg_rexn` those of
the compilation. -/
def Maker.makeOom (sup : Supply) (lc : Libc δ) (a : Abi) (addr : Nat → Nat) (m : Maker) (heap : Heap) :
    OM Heap ((Nat × Hdr (Obj δ)) × Heap) := do
  let (p, heap) ← mallocOom sup (m.size a) heap
  let h ← up (m.header lc a (addr p))
  match m with
  | .rex _ _ pat _ _ _ _ _ => do
    let (_, heap) ← rexTryOom sup pat heap
    .ok ((p, h), heap)
  | _ => .ok ((p, h), heap)

/-- The constructors of a table, one after the other.  The program stores each pointer in its array as soon as it has it;
in the panic function, the pointers that it has stored by then.  (e.g. arg_int.c:257-289.) -/
def makeAllOom (sup : Supply) (lc : Libc δ) (a : Abi) (addr : Nat → Nat) :
    List Maker → Heap → OM (List Nat × Heap) (List (Nat × Hdr (Obj δ)) × Heap)
  | [], heap => .ok ([], heap)
  | m :: ms, heap => do
    let (x, heap) ← within (fun heap => ([], heap)) (m.makeOom sup lc a addr heap)
    let (xs, heap) ← within (fun (q : List Nat × Heap) => (x.1 :: q.1, q.2)) (makeAllOom sup lc a addr ms heap)
    .ok (x :: xs, heap)

/-- A program makes a table, as in `lifeStep` for `make`: the constructors, and `arg_end` (arg_end.c:78-113), which makes
one allocation. -/
def makeTableOom (sup : Supply) (lc : Libc δ) (a : Abi) (addr : Nat → Nat) (w : World δ) (ms : List Maker) (maxerr : Int)
    (junk : ErrRec) (junkCount : Nat) : OM (List Nat × Heap) (World δ) := do
  let (xs, heap) ← makeAllOom sup lc a addr ms w.heap
  let (p, heap) ← within (fun heap => (xs.map (·.1), heap)) (mallocOom sup (endBlock a 0 maxerr).size heap)
  let fin ← up (argEnd maxerr junk junkCount)
  let hs := xs.map (·.2)
  .ok { w with
    heap
    tables := w.tables ++ [{
      makers := ms, maxerr, ptrs := xs.map (fun x => some x.1) ++ [some p], t := ⟨hs, fin⟩,
      scan := List.zipWith (fun m h => m.scan h) ms hs, err := List.zipWith (fun m h => m.err lc h) ms hs }] }

end Argtable
