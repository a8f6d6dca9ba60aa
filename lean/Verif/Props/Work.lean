import Verif.Proofs.Work
import Verif.Props.Callbacks
/-!
# C83: `arg_parse` does a bounded amount of work

The number of rounds in the model of `arg_parse` (`fuel`) is the number of calls of `getopt_long`.
-/

namespace Argtable
open Spec

variable {W σ : Type} {env : Bool}

/-- **C83, calls of getopt.**  If `arg_parse` returns at all, then it does so after at most as many calls of `getopt_long` as
the command line has characters, and one more. -/
theorem C83_rounds {t : Table σ} {g : GState} {argv : List CStr} {r : Nat × Table σ × GState}
    (hwf : WF (t.entries.map declOf)) (hargs : CArgs argv.tail) :
    Returns env argv t g r ↔ argParse env (chars argv.tail + 1) argv t g = .ok r :=
  ⟨argParse_rounds hwf hargs, fun h => ⟨_, h⟩⟩

/-- **C83, callbacks.**  `arg_parse` calls at most three callbacks for each entry of the table (its reset function, its scan
function for an operand that it rejects, and its check function), one for each character of the command line, and one for
each of its arguments. -/
theorem C83_callbacks {m : Nat} {w : W} {e : EndTbl} {g : GState} {argv : List CStr} {es : List (Entry W)}
    {r : Nat × SState W} (hend : EndOK m e) (hwf : WF (es.map (·.decl))) (hargs : CArgs argv.tail)
    (h : ReturnsShared env argv (es.map Entry.hdr) ⟨w, e, g⟩ r) :
    ∃ evs ops calls errs, tokenize (es.map (·.decl)) env argv.tail = some (evs, ops) ∧ CallsFor es evs ops calls errs ∧
      Performs es w calls r.2.world ∧ calls.length ≤ 3 * es.length + chars argv.tail + argv.tail.length := by
  obtain ⟨evs, ops, calls, errs, htok, hc, hp, _⟩ := C82_calls hend hwf hargs h
  have h1 := tokenize_size _ env argv.tail.length argv.tail (Nat.le_refl _) evs ops htok
  have h2 := callsFor_size hc
  exact ⟨evs, ops, calls, errs, htok, hc, hp, by omega⟩

/-- `-avw`: three options and the end of the command line take four of the five calls that are allowed. -/
example : ∃ r, argParse false 5 [cs "prog", cs "-avw"] Demo.table Demo.g0 = .ok r := by
  obtain ⟨r, hr, hs⟩ := readsAs_of_tokenize (t := Demo.table) (env := false) Demo.finOK Demo.wf
    (argv := [cs "prog", cs "-avw"]) (by decide) (evs := [.deliver 0 none, .deliver 1 none, .deliver 1 none]) (ops := [])
    (by decide) Demo.g0
  exact ⟨r, (C83_rounds Demo.wf (by decide)).1 hr⟩

/-- The calls of the counters of `CallbackDemo`. -/
example : ∃ r, ReturnsShared false [cs "prog", cs "-v"] (CallbackDemo.table.map Entry.hdr) ⟨7, Demo.fin, Demo.g0⟩ r ∧
    ∃ calls, Performs CallbackDemo.table 7 calls r.2.world ∧ calls.length ≤ 12 := by
  obtain ⟨r, hr⟩ := C82_total (env := false) 7 (es := CallbackDemo.table) Demo.g0 Demo.finOK CallbackDemo.wf
    (argv := [cs "prog", cs "-v"]) (by decide) CallbackDemo.total (evs := [.deliver 0 none]) (ops := []) (by decide)
  obtain ⟨_, _, calls, _, _, _, hp, hl⟩ := C83_callbacks Demo.finOK CallbackDemo.wf (by decide) hr
  exact ⟨r, hr, calls, hp, hl⟩

end Argtable
