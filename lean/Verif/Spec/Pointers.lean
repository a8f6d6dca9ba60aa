import Verif.Model.CmdMem
import Verif.Spec.Cmd
/-!
# Pointers into the command registry

What a caller can do with the pointers that `arg_cmd_info`, `arg_cmd_itr_key` and `arg_cmd_itr_value` hand out.
-/

namespace Argtable.Spec

open Argtable

variable {P C : Type}

/-- A string in the caller's own memory. -/
def own (text : CStr) : StrPtr := ⟨text, none⟩

/-- A call, with the pointers that it is given. -/
inductive PtrEvent (P C : Type) where
  | register (name : StrPtr) (proc : Option P) (description : StrPtr) (ctx : C)
  | unregister (name : StrPtr)

/-- The same call, with the strings themselves. -/
def PtrEvent.plain : PtrEvent P C → CmdEvent P C
  | .register n p d c => .register n.text p d.text c
  | .unregister n => .unregister n.text

/-- Running one call. -/
def runPtr (limit : Nat → Nat) (s : RegMem P C) : PtrEvent P C → M (RegMem P C)
  | .register n p d c => memRegister limit n p d c s
  | .unregister n => memUnregister limit n s

/-- Running a history. -/
def runPtrs (limit : Nat → Nat) : RegMem P C → List (PtrEvent P C) → M (RegMem P C)
  | s, [] => .ok s
  | s, e :: es => do runPtrs limit (← runPtr limit s e) es

/-- `arg_cmd_info` returns the block `b` for the name `n`. -/
def InfoOf (limit : Nat → Nat) (s : RegMem P C) (n : CStr) (b : Blk (CmdInfo P C)) : Prop :=
  memInfo limit (own n) s = .ok (some b)

/-- `b` is the registry's copy of the name `n`, as `arg_cmd_itr_search` and `arg_cmd_itr_key` return it. -/
def KeyOf (limit : Nat → Nat) (s : RegMem P C) (n : CStr) (b : Blk CStr) : Prop :=
  ∃ it it', cmdItrSearch limit s it (own n) = .ok (it', -1) ∧ cmdItrKey s it' = .ok b

/-- `p` points into a block that belongs to the registered command `n`. -/
def PointsInto (limit : Nat → Nat) (s : RegMem P C) (n : CStr) (p : StrPtr) : Prop :=
  (∃ b, InfoOf limit s n b ∧ p.home = some b.addr) ∨ ∃ b, KeyOf limit s n b ∧ p.home = some b.addr

/-- `p` is a good pointer to a string: into the caller's own memory, or to (a tail of) the name or the description of
a command that is registered, in a block of the registry. -/
def Good (limit : Nat → Nat) (s : RegMem P C) (p : StrPtr) : Prop :=
  p.home = none ∨
  (∃ n b, InfoOf limit s n b ∧ p.home = some b.addr ∧ (p.text <:+ b.val.name ∨ p.text <:+ b.val.description)) ∨
  ∃ n b, KeyOf limit s n b ∧ p.home = some b.addr ∧ p.text <:+ b.val

/-- A call that keeps to the rules: its pointers are good, its strings are not too long, and a command that is
registered already is not given a new registration through pointers into its own blocks. -/
def Allowed (limit : Nat → Nat) (s : RegMem P C) : PtrEvent P C → Prop
  | .register n _ d _ => Good limit s n ∧ Good limit s d ∧ n.text.length < 100 ∧ d.text.length < 256 ∧
      ¬ PointsInto limit s n.text n ∧ ¬ PointsInto limit s n.text d
  | .unregister n => Good limit s n

/-- Every call of a history keeps to the rules, in the state in which it is made. -/
def Legal (limit : Nat → Nat) : RegMem P C → List (PtrEvent P C) → Prop
  | _, [] => True
  | s, e :: es => Allowed limit s e ∧ ∀ s', runPtr limit s e = .ok s' → Legal limit s' es

/-- The addresses of the blocks that were allocated and have not been freed. -/
def outstanding (s : RegMem P C) : List Nat := (List.range s.next).filter (· ∉ s.released)

/-- The client loop over all commands, with the functions of arg_cmd.c. -/
def cmdLoop (s : RegMem P C) : Nat → HItr → M (List (Blk CStr × Blk (CmdInfo P C)))
  | 0, _ => .error .fuel
  | n + 1, it => do
    let k ← cmdItrKey s it
    let v ← cmdItrValue s it
    let (it, r) ← cmdItrAdvance s it
    if r = 0 then .ok [(k, v)]
    else
      let rest ← cmdLoop s n it
      .ok ((k, v) :: rest)

/-- The client loop from the start. -/
def cmdWalk (s : RegMem P C) (rounds : Nat) : M (List (Blk CStr × Blk (CmdInfo P C))) := do
  let n ← memCount s
  if n = 0 then .ok []
  else
    let it ← cmdItrCreate s
    cmdLoop s rounds it

end Argtable.Spec
