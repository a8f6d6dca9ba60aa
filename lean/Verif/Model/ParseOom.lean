import Verif.Model.ParseMem
/-!
# Running out of memory

`xmalloc` and its relatives call the panic function when there is no memory.  Here is `arg_parse` with its memory
(Model/ParseMem.lean) once more, in an environment where any allocation may fail; a run that ends in the panic function
shows what has become of the table, of getopt's variables and of the memory by then.  What comes next is up to the panic
function: the library's own ends the process, one that the program has installed with `arg_set_panic` may also leave by
`longjmp`.  (It must not return: the callers of `xmalloc` go on to use the block.)
-/

namespace Argtable

variable {σ ω α : Type}

/-! ### The panic function and the allocation functions -/

/-- How a panic function ends.
(`panic` ends in `abort` or `exit`, arg_utils.c:54-76; one set with arg_set_panic, arg_utils.c:78-80, may do anything.) -/
inductive Ending where
  | abort
  | exit (status : Int)
  | jump
  | returns
deriving DecidableEq, Repr

/-- What a panic function does: it writes to `stderr`, and ends somehow.  Its arguments are the environment variable
`EF_DUMPCORE` and the message.  (`arg_panicfn`, argtable3_private.h:64.) -/
abbrev PanicFn := Option CStr → CStr → CStr × Ending

/-- `panic`, arg_utils.c:54-76, the initial value of `s_panic` (arg_utils.c:45).  `EXIT_FAILURE` is 1.  The message
contains no conversion specification, so `vfprintf` writes it as it is. -/
def defaultPanic : PanicFn := fun efDumpcore fmt =>
  (fmt, match efDumpcore with
    | some (_ :: _) => .abort
    | _ => .exit 1)

/-- What an allocation function of the library comes to: the pointer it returns, or the end of the process (or the jump
out of the library); and what has been written to `stderr`.  (arg_utils.c:82-107.) -/
inductive Allocated where
  | ptr (p : Option Nat) (stderr : CStr)
  | ended (e : Ending) (stderr : CStr)
deriving DecidableEq, Repr

/-- The reaction to NULL, arg_utils.c:84-87, 94-97 and 103-106: `s_panic("Out of memory!\n")`, then NULL is returned. -/
def onNull (panic : PanicFn) (env : Option CStr) (ret : Option Nat) : Allocated :=
  match ret with
  | some a => .ptr (some a) []
  | none =>
    match panic env (cs "Out of memory!\n") with
    | (out, .returns) => .ptr none out
    | (out, e) => .ended e out

/-- `xmalloc`, arg_utils.c:82-88; `malloc` is the function of the C library, NULL is `none`. -/
def xmalloc (panic : PanicFn) (env : Option CStr) (malloc : Nat → Option Nat) (size : Nat) : Allocated :=
  onNull panic env (malloc size)

/-- `xcalloc`, arg_utils.c:90-98. -/
def xcalloc (panic : PanicFn) (env : Option CStr) (calloc : Nat → Nat → Option Nat) (count size : Nat) : Allocated :=
  let allocatedCount := if count ≠ 0 ∧ size ≠ 0 then count else 1
  let allocatedSize := if count ≠ 0 ∧ size ≠ 0 then size else 1
  onNull panic env (calloc allocatedCount allocatedSize)

/-- `xrealloc`, arg_utils.c:100-107. -/
def xrealloc (panic : PanicFn) (env : Option CStr) (realloc : Option Nat → Nat → Option Nat) (p : Option Nat) (size : Nat) :
    Allocated :=
  let allocatedSize := if size ≠ 0 then size else 1
  onNull panic env (realloc p allocatedSize)

/-! ### Runs that may end in the panic function -/

/-- How a run ends that does not return: by a fault, or in the panic function, when things are as `w` says.
(arg_utils.c:54-107.) -/
inductive Halt (ω : Type) where
  | fault (f : Fault)
  | panic (w : ω)

/-- The result of a function that allocates (arg_utils.c:82-107). -/
abbrev OM (ω α : Type) := Except (Halt ω) α

/-- A part that does not allocate.  (it does not get to arg_utils.c:82-107.) -/
def up (x : M α) : OM ω α :=
  match x with
  | .ok a => .ok a
  | .error f => .error (.fault f)

/-- The state of the caller, made from that of the callee.  (for calls such as those of argtable3.c:247-250.) -/
def within {ω' : Type} (f : ω → ω') (x : OM ω α) : OM ω' α :=
  match x with
  | .ok a => .ok a
  | .error (.fault e) => .error (.fault e)
  | .error (.panic w) => .error (.panic (f w))

/-- When there is memory: does `malloc(n)` succeed with this heap, and do the calls of `xrealloc` during the compilation
of this regular expression succeed?  (arg_utils.c:82-107.) -/
structure Supply where
  malloc : Heap → Nat → Bool
  grow : Heap → CStr → Bool

/-- `xmalloc(n)`, arg_utils.c:82-88, for a panic function that does not return. -/
def mallocOom (sup : Supply) (n : Nat) (heap : Heap) : OM Heap (Nat × Heap) :=
  if sup.malloc heap n then .ok (heapMalloc n heap) else .error (.panic heap)

/-- `trex_compile`, arg_rex.c:903-943.  Simplification: a call of `xrealloc` that fails (arg_rex.c:381) is taken to be made
after the block for `jmp_buf` has been allocated; nothing outside the new object has changed anyway. -/
def rexCompileOom (sup : Supply) (pattern : CStr) (heap : Heap) : OM Heap (Option RexObj × Heap) := do
  let (self, heap) ← mallocOom sup 96 heap
  let (nodesBlk, heap) ← mallocOom sup (pattern.length * 16) heap
  let (jmpbuf, heap) ← mallocOom sup 200 heap
  if ¬ sup.grow heap pattern then .error (.panic heap)
  else match compileNodes pattern with
  | .ok (nodes, nsub) => do
    let (matchesBlk, heap) ← mallocOom sup (nsub * 16) heap
    .ok (some { self, nodesBlk, jmpbuf, matchesBlk, nodes, nsub }, heap)
  | .error (.bad _) => do
    let heap ← up (heapFree nodesBlk heap)
    let heap ← up (heapFree jmpbuf heap)
    let heap ← up (heapFree self heap)
    .ok (none, heap)
  | .error (.fault f) => .error (.fault f)

/-- `arg_scanfn` at work; in the panic function, the object and the heap. -/
abbrev OScanFn (σ : Type) := σ → Option CStr → Heap → OM (σ × Heap) ((σ × Int) × Heap)

/-- `arg_rex_scanfn`, arg_rex.c:130-162. -/
def rexScanOom (sup : Supply) (pattern : CStr) (icase : Bool) (maxcount : Int) (o : StrObj) (argval : Option CStr)
    (heap : Heap) : OM (StrObj × Heap) ((StrObj × Int) × Heap) :=
  if (o.count : Int) = maxcount then .ok ((o, ARG_ERR_MAXCOUNT), heap)
  else match argval with
    | none => .ok (({ o with count := o.count + 1 }, 0), heap)
    | some a => do
      let (rex, heap) ← within (fun h => (o, h)) (rexCompileOom sup pattern heap)
      match rex with
      | none => .error (.fault (.ub "trex_match: NULL pointer dereference"))
      | some r => up do
        if ← rexMatchMem r icase a heap then
          let sval ← storeAt o.sval o.count a
          let heap ← rexFree rex heap
          .ok (({ count := o.count + 1, sval := sval }, 0), heap)
        else do
          let heap ← rexFree rex heap
          .ok ((o, ARG_ERR_REGNOMATCH), heap)

/-! ### arg_parse -/

/-- Where things stand when `arg_parse` runs out of memory. -/
structure Crash (σ : Type) where
  t : Table σ
  g : GState
  heap : Heap

/-- `alloc_longoptions`, argtable3.c:112-187. -/
def allocLongOom (sup : Supply) (entries : List (Hdr σ)) (heap : Heap) : OM Heap (List LongOpt × Nat × Heap) := do
  let (noptions, longoptlen) ← up (countPass entries 1 0)
  let (a, heap) ← mallocOom sup (longoptionsSize + optionSize * noptions + longoptlen) heap
  let _ ← up (heapTouch a heap)
  let opts ← up (fillPass noptions longoptlen entries 0 [] 0)
  .ok (opts, a, heap)

/-- `alloc_shortoptions`, argtable3.c:189-225. -/
def allocShortOom (sup : Supply) (entries : List (Hdr σ)) (heap : Heap) : OM Heap (CStr × Nat × Heap) := do
  let len := entries.foldl (fun n h => n + 3 * (h.shortopts.getD []).length) 2
  let (a, heap) ← mallocOom sup len heap
  let _ ← up (heapTouch a heap)
  let res := ':' :: entries.flatMap shortChars
  if res.length + 1 ≤ len then .ok (res, a, heap) else .error (.fault (.ub "alloc_shortoptions: heap overflow"))

/-- `scanfn(parent, optarg)` of entry `i` and registration of its error, argtable3.c:275-279 and 317-322. -/
def scanEntryOom (fns : List (Option (OScanFn σ))) (t : Table σ) (i : Nat) (optarg : Option CStr) (heap : Heap) :
    OM (Table σ × Heap) (Table σ × Heap) :=
  match t.entries[i]? with
  | none => .error (.fault (.ub "table index out of range"))
  | some h =>
    match fns[i]?.join with
    | none => .ok (t, heap)
    | some f => do
      let ((p, err), heap) ← within (fun (q : σ × Heap) =>
        ({ t with entries := t.entries.set i { h with parent := q.1 } }, q.2)) (f h.parent optarg heap)
      let t := { t with entries := t.entries.set i { h with parent := p } }
      if err ≠ 0 then do
        let e ← up (registerError t.fin (.entry i) err optarg)
        .ok ({ t with fin := e }, heap)
      else .ok (t, heap)

/-- The body of the `while` loop of `arg_parse_tagged`, argtable3.c:265-326. -/
def taggedBodyOom (fns : List (Option (OScanFn σ))) (av lo : Nat) (copt : Int) (g : GState) (t : Table σ)
    (heap : Heap) : OM (Table σ × Heap) (Table σ × Heap) :=
  if copt = 0 then do
    let _ ← up (heapTouch lo heap)
    let i := g.getoptval
    match t.entries[i]? with
    | none => .error (.fault (.ub "table index out of range"))
    | some h => do
      let t ← up (if g.optarg = some [] ∧ h.hasValue then do
                let a ← argvPrevMem av g heap
                regEnd t ARG_EMISSARG a
              else .ok t)
      scanEntryOom fns t i g.optarg heap
  else if copt = 63 then
    if g.optopt = 0 then up do
      let a ← argvPrevMem av g heap
      let t ← regEnd t ARG_ELONGOPT a
      .ok (t, heap)
    else up do
      let t ← regEnd t g.optopt none
      .ok (t, heap)
  else if copt = 58 then up do
    let a ← argvPrevMem av g heap
    let t ← regEnd t ARG_EMISSARG a
    .ok (t, heap)
  else
    match findShortoption (intChar copt) t.entries 0 with
    | none => up do
      let t ← regEnd t copt none
      .ok (t, heap)
    | some i => scanEntryOom fns t i g.optarg heap

/-- The `while` loop of `arg_parse_tagged`, argtable3.c:257-327. -/
def taggedLoopOom (fns : List (Option (OScanFn σ))) (posixEnv : Bool) (nargc : Nat) (sopts : CStr)
    (lopts : List LongOpt) (av lo so : Nat) :
    (fuel : Nat) → GState → Table σ → Heap → OM (Crash σ) ((GState × Table σ) × Heap)
  | 0, _, _, _ => .error (.fault .fuel)
  | fuel + 1, g, t, heap => do
    let _ ← up (heapTouch av heap)
    let _ ← up (heapTouch lo heap)
    let _ ← up (heapTouch so heap)
    let (copt, g) ← up (getoptLong posixEnv nargc sopts lopts g)
    if copt = -1 then .ok ((g, t), heap)
    else do
      let (t, heap) ← within (fun (q : Table σ × Heap) => ⟨q.1, g, q.2⟩) (taggedBodyOom fns av lo copt g t heap)
      taggedLoopOom fns posixEnv nargc sopts lopts av lo so fuel g t heap

/-- `arg_parse_tagged`, argtable3.c:235-331. -/
def parseTaggedOom (sup : Supply) (fns : List (Option (OScanFn σ))) (posixEnv : Bool) (fuel : Nat) (nargc : Nat) (av : Nat)
    (g : GState) (t : Table σ) (heap : Heap) : OM (Crash σ) ((GState × Table σ) × Heap) := do
  let (lopts, lo, heap) ← within (fun h => ⟨t, g, h⟩) (allocLongOom sup t.entries heap)
  let (sopts, so, heap) ← within (fun h => ⟨t, g, h⟩) (allocShortOom sup t.entries heap)
  let (r, heap) ← taggedLoopOom fns posixEnv nargc sopts lopts av lo so fuel
    { g with optind := 0, opterr := false } t heap
  let heap ← up (heapFree so heap)
  let heap ← up (heapFree lo heap)
  .ok (r, heap)

/-- `arg_parse_untagged`, argtable3.c:333-402. -/
def parseUntaggedOom (fns : List (Option (OScanFn σ))) (av : Nat) (g : GState) (nargc : Nat)
    (tabindex optind : Nat) (last : Option (Int × CStr × Nat)) (t : Table σ) (heap : Heap) :
    OM (Crash σ) ((Nat × Table σ) × Heap) :=
  if htab : tabindex < t.entries.length then
    if hopt : optind ≥ nargc then .ok ((optind, t), heap)
    else
      let h := t.entries[tabindex]
      if h.longopts.isSome ∨ h.shortopts.isSome then
        parseUntaggedOom fns av g nargc (tabindex + 1) optind last t heap
      else match fns[tabindex]?.join with
        | none => parseUntaggedOom fns av g nargc (tabindex + 1) optind last t heap
        | some f =>
          match heapTouch av heap with
          | .error e => .error (.fault e)
          | .ok _ =>
            match g.nargv[optind]? with
            | none => .error (.fault (.ub "argv: read out of range"))
            | some a =>
              match f h.parent (some a) heap with
              | .error (.fault e) => .error (.fault e)
              | .error (.panic (p, heap)) =>
                .error (.panic ⟨{ t with entries := t.entries.set tabindex { h with parent := p } },
                  { g with optind := optind }, heap⟩)
              | .ok ((p, err), heap) =>
                if err = 0 then
                  parseUntaggedOom fns av g nargc tabindex (optind + 1) none
                    { t with entries := t.entries.set tabindex { h with parent := p } } heap
                else
                  parseUntaggedOom fns av g nargc (tabindex + 1) optind (some (err, a, tabindex))
                    { t with entries := t.entries.set tabindex { h with parent := p } } heap
  else up (match last with
    | some (err, a, i) => do
      let e ← registerError t.fin (.entry i) err (some a)
      let r ← restErrorsMem av g.nargv nargc (optind + 1) { t with fin := e } heap
      .ok (r, heap)
    | none => do
      let r ← restErrorsMem av g.nargv nargc optind t heap
      .ok (r, heap))
termination_by (nargc - optind) + (t.entries.length - tabindex)
decreasing_by
  all_goals simp
  all_goals omega

/-- `arg_parse`, argtable3.c:427-480. -/
def argParseOom (sup : Supply) (fns : List (Option (OScanFn σ))) (posixEnv : Bool) (fuel : Nat) (argv : List CStr)
    (t : Table σ) (g : GState) (heap : Heap) : OM (Crash σ) ((Nat × Table σ × GState) × Heap) := do
  let t ← up (argReset t)
  if argv.length = 0 then
    let e ← up (parseCheck t.entries 0 t.fin)
    .ok ((e.count, { t with fin := e }, g), heap)
  else
    let (av, heap) ← within (fun h => ⟨t, g, h⟩) (mallocOom sup (8 * (argv.length + 1)) heap)
    let _ ← up (heapTouch av heap)
    let ((g, t), heap) ← parseTaggedOom sup fns posixEnv fuel argv.length av { g with nargv := argv } t heap
    let ((optind, t), heap) ← parseUntaggedOom fns av g argv.length 0 g.optind none t heap
    let g := { g with optind := optind }
    up (if t.fin.count = 0 then do
      let e ← parseCheck t.entries 0 t.fin
      let heap ← heapFree av heap
      .ok ((e.count, { t with fin := e }, g), heap)
    else do
      let heap ← heapFree av heap
      .ok ((t.fin.count, t, g), heap))

end Argtable
