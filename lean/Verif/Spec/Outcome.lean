import Verif.Model.Parse
import Verif.Spec.WellFormed
/-!
# Outcomes of `arg_parse`

The model's `argParse` takes a step budget.  These three relations are what a caller of the real
function can observe.
-/

namespace Argtable.Spec

variable {σ : Type}

/-- `arg_parse` returns, with return value, table and getopt state `r`. -/
def Returns (env : Bool) (argv : List CStr) (t : Table σ) (g : GState) (r : Nat × Table σ × GState) :
    Prop := ∃ fuel, argParse env fuel argv t g = .ok r

/-- `arg_parse` performs the undefined operation `w`. -/
def Crashes (env : Bool) (argv : List CStr) (t : Table σ) (g : GState) (w : String) : Prop :=
  ∃ fuel, argParse env fuel argv t g = .error (.ub w)

/-- `arg_parse` runs forever: no budget is enough. -/
def Hangs (env : Bool) (argv : List CStr) (t : Table σ) (g : GState) : Prop :=
  ∀ fuel, argParse env fuel argv t g = .error .fuel

/-- The terminator `e`, with room for `m` errors, shows the list of errors `errs`: it has the count
and in the first `count` cells the records that `recorded` prescribes. -/
structure EndRel (m : Nat) (errs : List ErrRec) (e : EndTbl) : Prop where
  ok : EndOK m e
  count : e.count = min errs.length m
  slots : e.slots.take e.count = recorded m errs

/-- What `arg_parse` leaves behind when the meaning of the command line is `(es, errs)`: the return
value, the entries, the terminator, nothing printed, and the private copy of `argv` a permutation of
the original with the program name in place. -/
structure Shows (m : Nat) (argv : List CStr) (g : GState) (es : List (Hdr σ)) (errs : List ErrRec)
    (r : Nat × Table σ × GState) : Prop where
  ret : r.1 = min errs.length m
  entries : r.2.1.entries = es
  rel : EndRel m errs r.2.1.fin
  stderr : r.2.2.stderr = g.stderr
  perm : argv ≠ [] → r.2.2.nargv.Perm argv
  head : argv ≠ [] → r.2.2.nargv.head? = argv.head?

end Argtable.Spec
