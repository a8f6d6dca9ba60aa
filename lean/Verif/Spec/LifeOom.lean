import Verif.Spec.Life
import Verif.Spec.DstrOom
import Verif.Model.LifeOom
/-!
# Programs that survive running out of memory

The program has set a panic function that jumps back into the program, which carries on.  It stores the pointer that a
constructor returns in its array at once, and has set the whole array to NULL before; so when memory runs out during the
construction of a table, it is left with an array that has some pointers, and NULL from there on.

`Happens`: what a call of the program comes to when memory is supplied as `sup` says.  `Survives`: the states that a
program can reach when all it does is legal (`MayDo`), and how many of the calls have run out of memory.
-/

namespace Argtable.Spec

variable {δ : Type}

/-- The state of the program: that of Model/Life.lean, and the arrays of the tables whose construction has been broken
off. -/
structure Prog (δ : Type) where
  w : World δ
  stubs : List (List (Option Nat))

/-- What the program does next: one of the calls of Model/Life.lean, or freeing one of the arrays whose construction was
broken off, with `arg_freetable` or, if `old`, with `arg_free`. -/
inductive Act (δ : Type) where
  | call (op : LifeOp δ)
  | clear (j : Nat) (old : Bool)

/-- The call does not allocate memory. -/
def Quiet : LifeOp δ → Prop
  | .preset .. | .freetable .. | .free .. => True
  | _ => False

/-- The table that a call prints something about, and what the printing function does with the `arg_dstr` that it has
made (Model/Stream.lean). -/
def fillOf (w : World δ) : LifeOp δ → Option (LTable δ × (DState → M DState))
  | .syntax i suffix => w.tables[i]?.map fun T => (T, syntaxDs T.t.entries suffix)
  | .syntaxv i suffix => w.tables[i]?.map fun T => (T, syntaxvDs T.t.entries suffix)
  | .glossary i fmtlen fmt2 => w.tables[i]?.map fun T => (T, glossaryDs fmtlen fmt2 T.t.entries)
  | .glossaryGnu i fuel => w.tables[i]?.map fun T => (T, glossaryGnuDs fuel T.t.entries)
  | .errors i prog => w.tables[i]?.map fun T => (T, errorsDs T.t T.err prog)
  | _ => none

/-- `Happens … s act s' b`: in the state `s` the program does `act`, and then the state is `s'`; `b` says whether the call
has returned (`true`) or has run out of memory (`false`).  `objSize` is the size of an `arg_dstr`. -/
inductive Happens (sup : Supply) (objSize : Nat) (lc : Libc δ) (a : Abi) (addr : Nat → Nat) (env : Bool) (s : Prog δ) :
    Act δ → Prog δ → Bool → Prop
  | quiet {op : LifeOp δ} {fuel : Nat} {w : World δ} : Quiet op → lifeStep lc a addr env fuel s.w op = .ok w →
      Happens sup objSize lc a addr env s (.call op) ⟨w, s.stubs⟩ true
  | made {ms : List Maker} {maxerr : Int} {junk : ErrRec} {junkCount : Nat} {w : World δ} :
      makeTableOom sup lc a addr s.w ms maxerr junk junkCount = .ok w →
      Happens sup objSize lc a addr env s (.call (.make ms maxerr junk junkCount)) ⟨w, s.stubs⟩ true
  | unmade {ms : List Maker} {maxerr : Int} {junk : ErrRec} {junkCount : Nat} {ps : List Nat} {heap : Heap} :
      makeTableOom sup lc a addr s.w ms maxerr junk junkCount = .error (.panic (ps, heap)) →
      Happens sup objSize lc a addr env s (.call (.make ms maxerr junk junkCount))
        ⟨{ s.w with heap }, s.stubs ++ [ps.map some ++ List.replicate (ms.length + 1 - ps.length) none]⟩ false
  | parsed {i : Nat} {T : LTable δ} {argv : List CStr} {r : Nat × Table (Obj δ) × GState} {heap : Heap} :
      s.w.tables[i]? = some T → touchAll T.ptrs s.w.heap = .ok () →
      ReturnsOom sup env argv T.t s.w.g s.w.heap r heap →
      Happens sup objSize lc a addr env s (.call (.parse i argv))
        ⟨{ s.w with heap, g := r.2.2, ret := r.1, tables := s.w.tables.set i { T with t := r.2.1 } }, s.stubs⟩ true
  | unparsed {i : Nat} {T : LTable δ} {argv : List CStr} {c : Crash (Obj δ)} :
      s.w.tables[i]? = some T → touchAll T.ptrs s.w.heap = .ok () → Panics sup env argv T.t s.w.g s.w.heap c →
      Happens sup objSize lc a addr env s (.call (.parse i argv))
        ⟨{ s.w with heap := c.heap, g := c.g, tables := s.w.tables.set i { T with t := c.t } }, s.stubs⟩ false
  | printed {op : LifeOp δ} {T : LTable δ} {f : DState → M DState} {text : CStr} {cmds : List DCmd} {heap : Heap}
      {out : CStr} {b : Bool} : fillOf s.w op = some (T, f) → touchAll T.ptrs s.w.heap = .ok () →
      textOf s.w op = some (.ok text) → ConsistsOf f cmds → Appending cmds text →
      streamShort sup objSize cmds s.w.heap s.w.out = .ok ((heap, out), b) →
      Happens sup objSize lc a addr env s (.call op) ⟨{ s.w with heap, out }, s.stubs⟩ b
  | cleared {j : Nat} {old : Bool} {ptrs ptrs' : List (Option Nat)} {heap : Heap} : s.stubs[j]? = some ptrs →
      freeWith (if old then argFree else argFreetable ptrs.length) ptrs s.w.heap = .ok (ptrs', heap) →
      Happens sup objSize lc a addr env s (.clear j old) ⟨{ s.w with heap }, s.stubs.set j ptrs'⟩ true

/-- What the program may do: the conditions are those of Spec/Life.lean. -/
def MayDo (lc : Libc δ) (env : Bool) (s : Prog δ) : Act δ → Prop
  | .call op => Permitted lc env s.w op
  | .clear j _ => j < s.stubs.length

/-- The states that a program can reach from `s0` when all it does is legal, and the number of calls that have run out of
memory. -/
inductive Survives (lc : Libc δ) (a : Abi) (addr : Nat → Nat) (env : Bool) (s0 : Prog δ) : Prog δ → Nat → Prop
  | start : Survives lc a addr env s0 s0 0
  | step {s s' : Prog δ} {n : Nat} {act : Act δ} {sup : Supply} {objSize : Nat} {b : Bool} :
      Survives lc a addr env s0 s n → MayDo lc env s act → Happens sup objSize lc a addr env s act s' b →
      Survives lc a addr env s0 s' (if b then n else n + 1)

/-- What has become of the tables when a call has run out of memory: the table that was parsed has its declarations and its
`arg_end` as before, only values and counts may differ; the table that was constructed is not there, only its array; no
other table has changed. -/
def Interrupted (s : Prog δ) (act : Act δ) (s' : Prog δ) : Prop :=
  match act with
  | .call (.make ms _ _ _) => s'.w.tables = s.w.tables ∧ ∃ ptrs, s'.stubs = s.stubs ++ [ptrs] ∧ ptrs.length = ms.length + 1
  | .call (.parse i _) => s'.stubs = s.stubs ∧ ∃ T t, s.w.tables[i]? = some T ∧ s'.w.tables = s.w.tables.set i { T with t } ∧
      Frame T.t.entries t.entries ∧ t.fin.maxcount = T.t.fin.maxcount
  | _ => s'.w.tables = s.w.tables ∧ s'.stubs = s.stubs

/-- The blocks of the objects that the program can reach: those of the tables that it has not freed, and those in the
arrays whose construction was broken off. -/
def owned (s : Prog δ) : List Nat := held s.w ++ s.stubs.flatMap pointers

end Argtable.Spec
