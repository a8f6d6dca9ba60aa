import Verif.Model.Parse
/-!
# Threads

Several threads, each with its own table, that call `arg_parse` and the printing functions.  The variables of getopt (arg_getopt_long.c:69-73,
102-112 and 402) exist once; everything else a call of `arg_parse` uses is its own: the copy of `argv`, the option arrays, and the cell for the
value of a long option.

A step of a thread is one of: the beginning of `arg_parse` up to the loop of `arg_parse_tagged`; one round of this loop; the rest of `arg_parse`;
a whole call of a printing function.  Real threads can be interrupted anywhere in between too, so what goes wrong here goes wrong there.
-/

namespace Argtable

variable {σ : Type}

/-- What a thread does next: call `arg_parse`, or a function that only reads the table.  The functions of `Model/Print.lean` and
`arg_print_errors` are of this kind: they look at the entries and at the recorded errors. -/
inductive ThrAct (σ : Type) where
  | parse (env : Bool) (argv : List CStr)
  | read (f : List (Hdr σ) → List ErrRec → M CStr)

/-- What a thread has seen: the value returned by `arg_parse` with the entries and recorded errors it left behind, or a text. -/
inductive Seen (σ : Type) where
  | parsed (ret : Nat) (entries : List (Hdr σ)) (errors : List ErrRec)
  | text (s : CStr)

/-- The recorded errors.  (argtable3.h:198-204.) -/
def recordsOf (t : Table σ) : List ErrRec := t.fin.slots.take t.fin.count

/-- What a call of `arg_parse` leaves behind (argtable3.c:427-480). -/
def parsedAs (ret : Nat) (t : Table σ) : Seen σ := .parsed ret t.entries (recordsOf t)

/-- The local variables of `arg_parse` and `arg_parse_tagged` (argtable3.c:235-250, 427-435) in the middle of a call. -/
structure Locals where
  env : Bool
  argc : Nat
  sopts : CStr
  lopts : List LongOpt
  nargv : List CStr
  getoptval : Nat

/-- Where a thread is: outside `arg_parse`, in the loop of `arg_parse_tagged`, or before `arg_parse_untagged`. -/
inductive Place where
  | out
  | tagged (c : Locals)
  | untagged (c : Locals)

/-- A thread: what it still has to do (the call in progress first), its table, where it is, and what it has seen.
(the calls are those of arg_parse, argtable3.c:427-480.) -/
structure Thr (σ : Type) where
  prog : List (ThrAct σ)
  table : Table σ
  place : Place
  seen : List (Seen σ)

/-- The action in progress is done.  (the call has returned, argtable3.c:479.) -/
def Thr.done (th : Thr σ) (t : Table σ) (o : Seen σ) : Thr σ := ⟨th.prog.tail, t, .out, th.seen ++ [o]⟩

/-- The call works on the shared variables and on its own vector and cell.
(`optind` and the others are static, arg_getopt_long.c:69-106; the vector is the copy made in argtable3.c:453-464.) -/
def inCall (g : GState) (c : Locals) : GState := { g with nargv := c.nargv, getoptval := c.getoptval }

/-- End of `arg_parse`, argtable3.c:468-479: `arg_parse_check` if there is no error so far. -/
def lastPart (t : Table σ) : M (Table σ) :=
  if t.fin.count = 0 then do
    let e ← parseCheck t.entries 0 t.fin
    .ok { t with fin := e }
  else .ok t

/-- One step of a thread.  (argtable3.c:427-480, cut before each call of `getopt_long`, argtable3.c:257.) -/
def stepThr (g : GState) (th : Thr σ) : M (GState × Thr σ) :=
  match th.place with
  | .out =>
    match th.prog with
    | [] => .ok (g, th)
    | .read f :: _ => do
      let s ← f th.table.entries (recordsOf th.table)
      .ok (g, th.done th.table (.text s))
    | .parse env argv :: _ => do
      let t ← argReset th.table
      if argv.length = 0 then do
        let e ← parseCheck t.entries 0 t.fin
        .ok (g, th.done { t with fin := e } (parsedAs e.count { t with fin := e }))
      else do
        let lopts ← allocLongoptions t.entries
        let sopts ← allocShortoptions t.entries
        .ok ({ g with optind := 0, opterr := false }, { th with table := t, place := .tagged ⟨env, argv.length, sopts, lopts, argv, 0⟩ })
  | .tagged c => do
    let (copt, g) ← getoptLong c.env c.argc c.sopts c.lopts (inCall g c)
    let c := { c with nargv := g.nargv, getoptval := g.getoptval }
    if copt = -1 then .ok (g, { th with place := .untagged c })
    else do
      let t ← taggedBody copt g th.table
      .ok (g, { th with table := t, place := .tagged c })
  | .untagged c => do
    let (optind, t) ← parseUntagged c.nargv c.argc 0 g.optind none th.table
    let t ← lastPart t
    .ok ({ g with optind := optind }, th.done t (parsedAs t.fin.count t))

/-- The threads and getopt's variables.  (arg_getopt_long.c:69-106.) -/
structure Threads (σ : Type) where
  threads : List (Thr σ)
  g : GState

/-- The thread is not in `arg_parse` (argtable3.c:427-480). -/
def Place.isOut : Place → Bool
  | .out => true
  | _ => false

/-- The thread is about to call `arg_parse`. -/
def Thr.wantsParse (th : Thr σ) : Bool :=
  match th.place, th.prog with
  | .out, .parse _ _ :: _ => true
  | _, _ => false

/-- Thread `i` gets the processor.  With `lock`, the program takes a mutex around `arg_parse`: a thread that wants to call it while some thread is
in it waits. -/
def stepOf (lock : Bool) (i : Nat) (w : Threads σ) : M (Threads σ) :=
  match w.threads[i]? with
  | none => .ok w
  | some th =>
    if lock && th.wantsParse && w.threads.any (fun th => !th.place.isOut) then .ok w
    else do
      let (g, th) ← stepThr w.g th
      .ok ⟨w.threads.set i th, g⟩

/-- The threads run as the scheduler decides.
(the threads are those of the program; the library has none, see argtable3.c:427-480.) -/
def runThreads (lock : Bool) : List Nat → Threads σ → M (Threads σ)
  | [], w => .ok w
  | i :: sched, w => do
    let w ← stepOf lock i w
    runThreads lock sched w

end Argtable
