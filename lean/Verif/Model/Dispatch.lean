import Verif.Model.Cmd
/-!
# Commands that use the registry while they run (arg_cmd.c)

`arg_cmd_dispatch` calls a function of the program, which may itself register, remove, look up, count and dispatch commands,
write to the string object `res` and use memory of its own.  Such a function is represented by the calls that it makes one
after the other, each of which may depend on the results of those before.
-/

namespace Argtable

variable {P C σ : Type}

/-- What the function behind a command does from some point on.  `σ` is the memory of the program.
(`arg_cmdfn`, argtable3.h:83.) -/
inductive Script (P C σ : Type) where
  /-- it returns -/
  | done (code : Int)
  /-- `arg_dstr_cat(res, text)` -/
  | write (text : CStr) (next : Script P C σ)
  /-- it reads the program's memory -/
  | look (next : σ → Script P C σ)
  /-- it changes the program's memory -/
  | store (mem : σ) (next : Script P C σ)
  /-- `arg_cmd_register(name, proc, description, ctx)` -/
  | register (name : CStr) (proc : Option P) (description : CStr) (ctx : C) (next : Script P C σ)
  /-- `arg_cmd_unregister(name)` -/
  | unregister (name : CStr) (next : Script P C σ)
  /-- `arg_cmd_info(name)`; the result is taken by value -/
  | info (name : CStr) (next : Option (CmdInfo P C) → Script P C σ)
  /-- `arg_cmd_count()` -/
  | count (next : Nat → Script P C σ)
  /-- `arg_cmd_dispatch(name, argc, argv, res)` -/
  | dispatch (name : CStr) (argv : List CStr) (next : Int → Script P C σ)

/-- The registry, the contents of the string object `res` (arg_dstr.c; the object itself is the subject of other models), and the
memory of the program. -/
structure CmdWorld (P C σ : Type) where
  reg : Registry P C
  out : CStr
  mem : σ

/-- A program that makes these calls.  `call` stands for the indirect call in `arg_cmd_dispatch` (arg_cmd.c:186); the procedure
and the context are read before the call, and the registry is not looked at after it. -/
def runScript (limit : Nat → Nat) (call : P → C → List CStr → CmdWorld P C σ → M (Int × CmdWorld P C σ)) :
    Script P C σ → CmdWorld P C σ → M (Int × CmdWorld P C σ)
  | .done code, w => .ok (code, w)
  | .write text next, w => runScript limit call next { w with out := w.out ++ text }
  | .look next, w => runScript limit call (next w.mem) w
  | .store mem next, w => runScript limit call next { w with mem := mem }
  | .register name proc description ctx next, w => do
    let r ← cmdRegister limit w.reg name proc description ctx
    runScript limit call next { w with reg := r }
  | .unregister name next, w => do
    let r ← cmdUnregister limit w.reg name
    runScript limit call next { w with reg := r }
  | .info name next, w => do
    let i ← cmdInfo limit w.reg name
    runScript limit call (next i) w
  | .count next, w => do
    let n ← cmdCount w.reg
    runScript limit call (next n) w
  | .dispatch name argv next, w => do
    let (p, c) ← cmdDispatch limit w.reg name
    let (code, w) ← call p c argv w
    runScript limit call (next code) w

/-- Calling the procedure `p`, with the context `c`; `code` gives the text of the program's functions.  At most the given number
of commands run inside each other (the stack); otherwise the outcome is `fuel`.
(`info->proc(argc, argv, res, info->ctx)`, arg_cmd.c:180-187.) -/
def callDepth (limit : Nat → Nat) (code : P → C → List CStr → Script P C σ) :
    Nat → P → C → List CStr → CmdWorld P C σ → M (Int × CmdWorld P C σ)
  | 0, _, _, _, _ => .error .fuel
  | depth + 1, p, c, argv, w => runScript limit (callDepth limit code depth) (code p c argv) w

end Argtable
