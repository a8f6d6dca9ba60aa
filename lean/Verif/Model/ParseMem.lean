import Verif.Model.Parse
import Verif.Model.RexMem
/-!
# `arg_parse` and its memory

`Model/Parse.lean` follows the values.  Here is the same code with the blocks it allocates and releases: the private
copy of `argv`, the two option tables, and what the scan functions allocate.  Every use of a block is checked.

`fns` are the scan functions at work, one for each entry of the table: they take and return the heap.
-/

namespace Argtable

variable {σ : Type}

/-- `arg_scanfn` at work. -/
abbrev ScanFn (σ : Type) := σ → Option CStr → Heap → M ((σ × Int) × Heap)

/-- `sizeof(struct longoptions)`, argtable3.c:87-91, on x86-64 Linux. -/
def longoptionsSize : Nat := 16
/-- `sizeof(struct option)`, arg_getopt.h:48-60, on x86-64 Linux. -/
def optionSize : Nat := 32

/-- `alloc_longoptions`, argtable3.c:112-187: the options, and the address of their block. -/
def allocLongMem (entries : List (Hdr σ)) (heap : Heap) : M (List LongOpt × Nat × Heap) := do
  let (noptions, longoptlen) ← countPass entries 1 0
  let (a, heap) := heapMalloc (longoptionsSize + optionSize * noptions + longoptlen) heap
  let _ ← heapTouch a heap
  let opts ← fillPass noptions longoptlen entries 0 [] 0
  .ok (opts, a, heap)

/-- `alloc_shortoptions`, argtable3.c:189-225. -/
def allocShortMem (entries : List (Hdr σ)) (heap : Heap) : M (CStr × Nat × Heap) := do
  let len := entries.foldl (fun n h => n + 3 * (h.shortopts.getD []).length) 2
  let (a, heap) := heapMalloc len heap
  let _ ← heapTouch a heap
  let res := ':' :: entries.flatMap shortChars
  if res.length + 1 ≤ len then .ok (res, a, heap) else .error (.ub "alloc_shortoptions: heap overflow")

/-- `scanfn(parent, optarg)` of entry `i` and registration of its error, argtable3.c:275-279 and
317-322. -/
def scanEntryMem (fns : List (Option (ScanFn σ))) (t : Table σ) (i : Nat) (optarg : Option CStr) (heap : Heap) :
    M (Table σ × Heap) :=
  match t.entries[i]? with
  | none => .error (.ub "table index out of range")
  | some h =>
    match fns[i]?.join with
    | none => .ok (t, heap)
    | some f => do
      let ((p, err), heap) ← f h.parent optarg heap
      let t := { t with entries := t.entries.set i { h with parent := p } }
      if err ≠ 0 then do
        let e ← registerError t.fin (.entry i) err optarg
        .ok ({ t with fin := e }, heap)
      else .ok (t, heap)

/-- `argv[optind - 1]` in the private copy at `av`.  (argtable3.c:272, 291, 305.) -/
def argvPrevMem (av : Nat) (g : GState) (heap : Heap) : M (Option CStr) := do
  let _ ← heapTouch av heap
  argvPrev g

/-- The body of the `while` loop of `arg_parse_tagged`, argtable3.c:265-326; `lo` is the address of the long
options, which hold `getoptval`. -/
def taggedBodyMem (fns : List (Option (ScanFn σ))) (av lo : Nat) (copt : Int) (g : GState) (t : Table σ)
    (heap : Heap) : M (Table σ × Heap) :=
  if copt = 0 then do
    let _ ← heapTouch lo heap
    let i := g.getoptval
    match t.entries[i]? with
    | none => .error (.ub "table index out of range")
    | some h => do
      let t ← if g.optarg = some [] ∧ h.hasValue then do
                let a ← argvPrevMem av g heap
                regEnd t ARG_EMISSARG a
              else .ok t
      scanEntryMem fns t i g.optarg heap
  else if copt = 63 then
    if g.optopt = 0 then do
      let a ← argvPrevMem av g heap
      let t ← regEnd t ARG_ELONGOPT a
      .ok (t, heap)
    else do
      let t ← regEnd t g.optopt none
      .ok (t, heap)
  else if copt = 58 then do
    let a ← argvPrevMem av g heap
    let t ← regEnd t ARG_EMISSARG a
    .ok (t, heap)
  else
    match findShortoption (intChar copt) t.entries 0 with
    | none => do
      let t ← regEnd t copt none
      .ok (t, heap)
    | some i => scanEntryMem fns t i g.optarg heap

/-- The `while` loop of `arg_parse_tagged`, argtable3.c:257-327; `getopt_long` uses all three blocks. -/
def taggedLoopMem (fns : List (Option (ScanFn σ))) (posixEnv : Bool) (nargc : Nat) (sopts : CStr)
    (lopts : List LongOpt) (av lo so : Nat) :
    (fuel : Nat) → GState → Table σ → Heap → M ((GState × Table σ) × Heap)
  | 0, _, _, _ => .error .fuel
  | fuel + 1, g, t, heap => do
    let _ ← heapTouch av heap
    let _ ← heapTouch lo heap
    let _ ← heapTouch so heap
    let (copt, g) ← getoptLong posixEnv nargc sopts lopts g
    if copt = -1 then .ok ((g, t), heap)
    else do
      let (t, heap) ← taggedBodyMem fns av lo copt g t heap
      taggedLoopMem fns posixEnv nargc sopts lopts av lo so fuel g t heap

/-- `arg_parse_tagged`, argtable3.c:235-331. -/
def parseTaggedMem (fns : List (Option (ScanFn σ))) (posixEnv : Bool) (fuel : Nat) (nargc : Nat) (av : Nat)
    (g : GState) (t : Table σ) (heap : Heap) : M ((GState × Table σ) × Heap) := do
  let (lopts, lo, heap) ← allocLongMem t.entries heap
  let (sopts, so, heap) ← allocShortMem t.entries heap
  let (r, heap) ← taggedLoopMem fns posixEnv nargc sopts lopts av lo so fuel
    { g with optind := 0, opterr := false } t heap
  let heap ← heapFree so heap
  let heap ← heapFree lo heap
  .ok (r, heap)

/-- Final loop of `arg_parse_untagged`, argtable3.c:396-399. -/
def restErrorsMem (av : Nat) (argv : List CStr) (nargc : Nat) (optind : Nat) (t : Table σ) (heap : Heap) :
    M (Nat × Table σ) :=
  if optind < nargc then do
    let _ ← heapTouch av heap
    let a ← argvAt argv optind
    let t ← regEnd t ARG_ENOMATCH a
    restErrorsMem av argv nargc (optind + 1) t heap
  else .ok (optind, t)
termination_by nargc - optind

/-- `arg_parse_untagged`, argtable3.c:333-402. -/
def parseUntaggedMem (fns : List (Option (ScanFn σ))) (av : Nat) (argv : List CStr) (nargc : Nat)
    (tabindex optind : Nat) (last : Option (Int × CStr × Nat)) (t : Table σ) (heap : Heap) :
    M ((Nat × Table σ) × Heap) :=
  if htab : tabindex < t.entries.length then
    if hopt : optind ≥ nargc then .ok ((optind, t), heap)
    else
      let h := t.entries[tabindex]
      if h.longopts.isSome ∨ h.shortopts.isSome then
        parseUntaggedMem fns av argv nargc (tabindex + 1) optind last t heap
      else match fns[tabindex]?.join with
        | none => parseUntaggedMem fns av argv nargc (tabindex + 1) optind last t heap
        | some f =>
          match heapTouch av heap with
          | .error e => .error e
          | .ok _ =>
            match argv[optind]? with
            | none => .error (.ub "argv: read out of range")
            | some a =>
              match f h.parent (some a) heap with
              | .error e => .error e
              | .ok ((p, err), heap) =>
                if err = 0 then
                  parseUntaggedMem fns av argv nargc tabindex (optind + 1) none
                    { t with entries := t.entries.set tabindex { h with parent := p } } heap
                else
                  parseUntaggedMem fns av argv nargc (tabindex + 1) optind (some (err, a, tabindex))
                    { t with entries := t.entries.set tabindex { h with parent := p } } heap
  else
    match last with
    | some (err, a, i) => do
      let e ← registerError t.fin (.entry i) err (some a)
      let r ← restErrorsMem av argv nargc (optind + 1) { t with fin := e } heap
      .ok (r, heap)
    | none => do
      let r ← restErrorsMem av argv nargc optind t heap
      .ok (r, heap)
termination_by (nargc - optind) + (t.entries.length - tabindex)
decreasing_by
  all_goals simp
  all_goals omega

/-- `arg_parse`, argtable3.c:427-480. -/
def argParseMem (fns : List (Option (ScanFn σ))) (posixEnv : Bool) (fuel : Nat) (argv : List CStr) (t : Table σ)
    (g : GState) (heap : Heap) : M ((Nat × Table σ × GState) × Heap) := do
  let t ← argReset t
  if argv.length = 0 then
    let e ← parseCheck t.entries 0 t.fin
    .ok ((e.count, { t with fin := e }, g), heap)
  else
    let (av, heap) := heapMalloc (8 * (argv.length + 1)) heap
    let _ ← heapTouch av heap
    let ((g, t), heap) ← parseTaggedMem fns posixEnv fuel argv.length av { g with nargv := argv } t heap
    let ((optind, t), heap) ← parseUntaggedMem fns av g.nargv argv.length 0 g.optind none t heap
    let g := { g with optind := optind }
    if t.fin.count = 0 then
      let e ← parseCheck t.entries 0 t.fin
      let heap ← heapFree av heap
      .ok ((e.count, { t with fin := e }, g), heap)
    else do
      let heap ← heapFree av heap
      .ok ((t.fin.count, t, g), heap)

end Argtable
