import Verif.Proofs.Dispatch
/-!
# Commands that use the registry while they run (C98)

`code` gives, for every procedure, context and command line, the calls that the program's function makes: any finite tree of calls
in which each may depend on the results of those before.  `CarriesOut` and `Misuses` (Spec/Dispatch.lean) say what such a
program does in terms of the history of registrations alone.
-/

namespace Argtable

open Spec

variable {P C σ : Type} {limit : Nat → Nat} {code : P → C → List CStr → Script P C σ}

/-- **C98, a program does what is written in it.**  If the program comes to an end by the description, then it does with every
sufficient stack, with the result, the text, the memory and the registry that the description gives. -/
theorem C98_ends {x : Script P C σ} {s s' : CmdLog P C σ} {r : Int} (h : CarriesOut code x s r s') {w : CmdWorld P C σ}
    (hw : Follow limit w s) : ∃ d0 w', Follow limit w' s' ∧
      ∀ d, d0 ≤ d → runScript limit (callDepth limit code d) x w = .ok (r, w') :=
  performs_total h w hw

/-- **C98, and nothing else.**  Whatever a run that ends has done is what the description says, and the description leaves no
choice. -/
theorem C98_only {x : Script P C σ} {s : CmdLog P C σ} {w w' : CmdWorld P C σ} (hw : Follow limit w s) {d : Nat} {r : Int}
    (h : runScript limit (callDepth limit code d) x w = .ok (r, w')) :
    ∃ s', CarriesOut code x s r s' ∧ Follow limit w' s' ∧
      ∀ r2 s2, CarriesOut code x s r2 s2 → r2 = r ∧ s2 = s' := by
  have := run_outcome (code := code) d x w s hw
  rw [h] at this
  obtain ⟨s', h1, h2⟩ := this
  exact ⟨s', h1, h2, fun r2 s2 h3 => performs_unique h3 h1⟩

/-- **C98, no use of freed memory.**  The only undefined behaviour is that of the documented assertions: a program that does not
dispatch a name that is not registered (or has no procedure), nor register one that is too long, meets none, whatever its
commands do to the registry, to themselves or to their callers. -/
theorem C98_safe {x : Script P C σ} {s : CmdLog P C σ} {w : CmdWorld P C σ} (hw : Follow limit w s)
    (hok : ¬ Misuses code x s) (d : Nat) (why : String) :
    runScript limit (callDepth limit code d) x w ≠ .error (.ub why) := by
  intro h
  have := run_outcome (code := code) d x w s hw
  rw [h] at this
  exact hok this

/-- **C98, misuse.**  A program that comes to such a call does not end. -/
theorem C98_misuse {x : Script P C σ} {s : CmdLog P C σ} {w : CmdWorld P C σ} (hw : Follow limit w s)
    (hbad : Misuses code x s) (d : Nat) (r : Int) (w' : CmdWorld P C σ) :
    runScript limit (callDepth limit code d) x w ≠ .ok (r, w') := by
  intro h
  obtain ⟨s', h1, -⟩ := C98_only hw h
  exact performs_not_misuses h1 hbad

/-- **C98, from the start.**  After `arg_cmd_init` the history is empty. -/
theorem C98_start (m : σ) : Follow limit (⟨cmdInit limit, [], m⟩ : CmdWorld P C σ) ⟨[], [], m⟩ :=
  ⟨by simp, rfl, rfl, rfl⟩

/-- **C98, a command sees its own replacement.**  A command that, while it runs, registers another procedure under its own name
and dispatches that name again runs the new procedure, and then goes on itself. -/
theorem C98_replaced {name : CStr} {argv argv' : List CStr} {p q : P} {c' : C} {d : CStr} {f g : Int → Script P C σ}
    {s s1 s2 s3 : CmdLog P C σ} {r1 r2 r3 : Int} {i : CmdInfo P C} (hi : latest s.evs name = some i) (hp : i.proc = some p)
    (hcode : code p i.ctx argv = .register name (some q) d c' (.dispatch name argv' f))
    (hn : name.length < 100) (hd : d.length < 256)
    (h1 : CarriesOut code (code q c' argv') { s with evs := s.evs ++ [.register name (some q) d c'] } r1 s1)
    (h2 : CarriesOut code (f r1) s1 r2 s2) (h3 : CarriesOut code (g r2) s2 r3 s3) {w : CmdWorld P C σ}
    (hw : Follow limit w s) : ∃ d0 w', Follow limit w' s3 ∧
      ∀ d, d0 ≤ d → runScript limit (callDepth limit code d) (.dispatch name argv g) w = .ok (r3, w') := by
  refine C98_ends (.dispatch hi hp ?_ h3) hw
  rw [hcode]
  refine .register hn hd (.dispatch (i := ⟨name, d, some q, c'⟩) (p := q) ?_ rfl h1 h2)
  rw [latest_snoc]
  simp [CmdEvent.name, CmdEvent.info]

/-! ## A program

Command 0, `once`, removes itself, writes and returns; command 1, `twice`, dispatches `once`, and then finds that it is gone. -/

namespace DispatchDemo

def does : Nat → Unit → List CStr → Script Nat Unit Nat
  | 0, _, argv => .unregister (cs "once") (.write (argv.getLast?.getD []) (.look fun n => .store (n + 1) (.done 7)))
  | _, _, _ => .dispatch (cs "once") [cs "once", cs "hello"] fun r =>
      .info (cs "once") fun i => .count fun n => .done (if i.isSome then 1 else r + n)

def main : Script Nat Unit Nat :=
  .register (cs "once") (some 0) (cs "runs once") ()
    (.register (cs "twice") (some 1) (cs "runs once") () (.dispatch (cs "twice") [cs "twice"] .done))

def history : List (CmdEvent Nat Unit) :=
  [.register (cs "once") (some 0) (cs "runs once") (), .register (cs "twice") (some 1) (cs "runs once") (),
    .unregister (cs "once")]

theorem carried : CarriesOut does main ⟨[], [], 0⟩ 8 ⟨history, cs "hello", 1⟩ := by
  refine .register (by decide) (by decide) (.register (by decide) (by decide) ?_)
  refine .dispatch (r1 := 8) (s1 := ⟨history, cs "hello", 1⟩) (i := ⟨cs "twice", cs "runs once", some 1, ()⟩) (p := 1) (by decide) rfl ?_ .done
  refine .dispatch (r1 := 7) (s1 := ⟨history, cs "hello", 1⟩) (i := ⟨cs "once", cs "runs once", some 0, ()⟩) (p := 0) (by decide) rfl ?_ ?_
  · exact .unregister (.write (.look (.store .done)))
  · exact .info (.count .done)

/-- A command that replaces itself. -/
def swaps : Nat → Unit → List CStr → Script Nat Unit Nat
  | 0, _, _ => .register (cs "x") (some 1) [] () (.dispatch (cs "x") [] fun r => .done (r + 1))
  | _, _, _ => .done 5

end DispatchDemo

example {w : CmdWorld Nat Unit Nat} (hw : Follow (fun n => n) w ⟨[.register (cs "x") (some 0) [] ()], [], 0⟩) :
    ∃ d0 w', Follow (fun n => n) w' ⟨[.register (cs "x") (some 0) [] (), .register (cs "x") (some 1) [] ()], [], 0⟩ ∧ ∀ d, d0 ≤ d →
      runScript (fun n => n) (callDepth (fun n => n) DispatchDemo.swaps d) (.dispatch (cs "x") [] .done) w = .ok (6, w') :=
  C98_replaced (p := 0) (q := 1) (c' := ()) (d := []) (f := fun r => .done (r + 1)) (r1 := 5) (i := ⟨cs "x", [], some 0, ()⟩)
    (by decide) rfl rfl (by decide) (by decide) .done .done .done hw

/-- The program ends with 8, and has written `hello`. -/
example : ∃ d0 w', (w'.out = cs "hello" ∧ w'.mem = 1) ∧ ∀ d, d0 ≤ d →
    runScript (fun n => n) (callDepth (fun n => n) DispatchDemo.does d) DispatchDemo.main ⟨cmdInit (fun n => n), [], 0⟩ = .ok (8, w') := by
  obtain ⟨d0, w', h1, h2⟩ := C98_ends DispatchDemo.carried (C98_start (limit := fun n => n) 0)
  exact ⟨d0, w', ⟨h1.out, h1.mem⟩, h2⟩

/-- No run of it is undefined. -/
example (d : Nat) (why : String) :
    runScript (fun n => n) (callDepth (fun n => n) DispatchDemo.does d) DispatchDemo.main ⟨cmdInit (fun n => n), [], 0⟩ ≠ .error (.ub why) :=
  C98_safe (C98_start 0) (performs_not_misuses DispatchDemo.carried) d why

/-- Dispatching `once` a second time is misuse. -/
example (d : Nat) (r : Int) (w') :
    runScript (fun n => n) (callDepth (fun n => n) DispatchDemo.does d)
      (.dispatch (cs "once") [cs "once"] .done) ⟨cmdInit (fun n => n), [], 0⟩ ≠ .ok (r, w') :=
  C98_misuse (C98_start 0) (.unknown (by intro i p h; cases h)) d r w'

end Argtable
