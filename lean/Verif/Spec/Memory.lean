import Verif.Spec.Dstr
import Verif.Spec.Rex
import Verif.Model.ParseMem
/-!
# What happens to the memory

`Unchanged heap heap'`: between the two states of memory, everything that was allocated has been released, nothing
else has been released, and no block that existed before has changed.

`AtWork h f`: `f` is the scan function of the entry `h`, as the function at work: that of an `arg_rex` allocates
memory, those of the other entries do not.
-/

namespace Argtable.Spec

variable {δ : Type}

/-- The same blocks are allocated, and the older ones have the same contents. -/
def Unchanged (heap heap' : Heap) : Prop :=
  liveBlocks heap' = liveBlocks heap ∧ ∀ a, a < heap.length → heap'[a]? = heap[a]?

/-- The scan function of an entry, with its use of memory: only that of `arg_rexn` uses any. -/
inductive AtWork : Hdr (Obj δ) → Option (ScanFn (Obj δ)) → Prop
  | rex {pat : CStr} {ic : Bool} {h : Hdr (Obj δ)} {o : StrObj} : RexEntry pat ic h o → AtWork h (some fun
      | .rex o, a, heap => do
        let ((o, e), heap) ← rexScanMem pat ic h.maxcount o a heap
        .ok ((.rex o, e), heap)
      | _, _, _ => confused)
  | other {h : Hdr (Obj δ)} : (∀ o, h.parent ≠ .rex o) → AtWork h (h.scanfn.map fun f p a heap => do
      let r ← f p a
      .ok (r, heap))

/-- `fns` are the scan functions of all entries. -/
def AllAtWork (fns : List (Option (ScanFn (Obj δ)))) (es : List (Hdr (Obj δ))) : Prop :=
  fns.length = es.length ∧
    ∀ (i : Nat) (h : Hdr (Obj δ)) (f : Option (ScanFn (Obj δ))), es[i]? = some h → fns[i]? = some f → AtWork h f

/-- `arg_parse` is called once for each of the command lines `argvs` with the same table, and returns each time:
the results, and table, state of getopt and memory at the end. -/
inductive Session (fns : List (Option (ScanFn (Obj δ)))) (env : Bool) :
    List (List CStr) → Table (Obj δ) → GState → Heap → List Nat → Table (Obj δ) → GState → Heap → Prop
  | nil {t : Table (Obj δ)} {g : GState} {heap : Heap} : Session fns env [] t g heap [] t g heap
  | cons {argv : List CStr} {argvs : List (List CStr)} {t t1 t2 : Table (Obj δ)} {g g1 g2 : GState}
      {heap heap1 heap2 : Heap} {fuel n : Nat} {ns : List Nat} :
      argParseMem fns env fuel argv t g heap = .ok ((n, t1, g1), heap1) →
      Session fns env argvs t1 g1 heap1 ns t2 g2 heap2 →
      Session fns env (argv :: argvs) t g heap (n :: ns) t2 g2 heap2

end Argtable.Spec
