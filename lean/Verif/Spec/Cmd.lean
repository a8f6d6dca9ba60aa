import Verif.Model.Cmd
import Verif.Spec.Hash
import Mathlib.Data.List.Dedup

/-!
# Specification vocabulary for the command registry
-/

namespace Argtable.Spec

open Argtable

variable {P C : Type}

/-- What a client does to the registry. -/
inductive CmdEvent (P C : Type) where
  | register (name : CStr) (proc : Option P) (description : CStr) (ctx : C)
  | unregister (name : CStr)

/-- The name an event is about. -/
def CmdEvent.name : CmdEvent P C → CStr
  | .register n _ _ _ => n
  | .unregister n => n

/-- What is registered by an event. -/
def CmdEvent.info : CmdEvent P C → Option (CmdInfo P C)
  | .register n p d c => some { name := n, description := d, proc := p, ctx := c }
  | .unregister _ => none

/-- The documented limits on names and descriptions. -/
def CmdEvent.fits : CmdEvent P C → Prop
  | .register n _ d _ => n.length < 100 ∧ d.length < 256
  | .unregister _ => True

/-- What the latest event about a name registered, if that was a registration. -/
def latest (evs : List (CmdEvent P C)) (name : CStr) : Option (CmdInfo P C) :=
  (evs.reverse.find? (fun e => e.name = name)).bind CmdEvent.info

/-- The names that are registered, each once. -/
def registered (evs : List (CmdEvent P C)) : List CStr :=
  (evs.map CmdEvent.name).dedup.filter (fun n => (latest evs n).isSome)

/-- Running one event. -/
def runEvent (limit : Nat → Nat) (r : Registry P C) : CmdEvent P C → M (Registry P C)
  | .register n p d c => cmdRegister limit r n p d c
  | .unregister n => cmdUnregister limit r n

/-- Running a history. -/
def runEvents (limit : Nat → Nat) : Registry P C → List (CmdEvent P C) → M (Registry P C)
  | r, [] => pure r
  | r, e :: es => do runEvents limit (← runEvent limit r e) es

/-- Iterating over the registry from `arg_cmd_itr_create` on (arg_cmd.c:197-215). -/
def cmdVisit (r : Registry P C) (rounds : Nat) : M (List (CStr × CmdInfo P C)) := do
  visit (← r.get) rounds

end Argtable.Spec
