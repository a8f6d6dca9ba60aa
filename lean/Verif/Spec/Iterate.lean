import Verif.Spec.Cmd
/-!
# Changing the commands while walking through them

A program walks through the registered commands with an iterator and registers and unregisters commands in between.  It takes
care of two things: it leaves the command alone at which the iterator stands, and it does not have more commands than some
number `m`.
-/

namespace Argtable.Spec
open Argtable

variable {P C : Type}

/-- Where the program is. -/
structure Stroll (P C : Type) where
  /-- the registry -/
  reg : Registry P C
  /-- the iterator -/
  it : HItr
  /-- what the iterator has shown so far, each time with the number of changes made before that -/
  seen : List (CStr × CmdInfo P C × Nat)
  /-- the changes made so far -/
  did : List (CmdEvent P C)
  /-- `arg_cmd_itr_advance` has returned 0, or there was nothing to walk through -/
  over : Bool

/-- What the program does next. -/
inductive Turn (P C : Type) where
  | next
  | change (e : CmdEvent P C)

/-- `arg_cmd_itr_key` and `arg_cmd_itr_value`. -/
def Stroll.look (s : Stroll P C) : M (Stroll P C) := do
  let t ← s.reg.get
  let k ← itrKey t s.it
  let v ← itrValue t s.it
  .ok { s with seen := s.seen ++ [(k, v, s.did.length)] }

/-- `arg_cmd_itr_create`, unless there are no commands. -/
def Stroll.begin (r : Registry P C) : M (Stroll P C) := do
  let n ← cmdCount r
  let t ← r.get
  let it ← itrCreate t
  if n = 0 then .ok { reg := r, it, seen := [], did := [], over := true }
  else Stroll.look { reg := r, it, seen := [], did := [], over := false }

/-- The name at which the iterator stands. -/
def Stroll.here (s : Stroll P C) : M (Option CStr) :=
  if s.over then .ok none else do
    let t ← s.reg.get
    let k ← itrKey t s.it
    .ok (some k)

/-- The program makes the change unless it is about the command at which the iterator stands, or there are `m` commands
already and this would be one more. -/
def Stroll.move (limit : Nat → Nat) (m : Nat) (s : Stroll P C) : Turn P C → M (Stroll P C)
  | .next =>
    if s.over then .ok s else do
      let t ← s.reg.get
      let (it, r) ← itrAdvance t s.it
      if r = 0 then .ok { s with it, over := true } else Stroll.look { s with it }
  | .change e => do
    let k ← s.here
    if k = some e.name then .ok s else do
      let i ← cmdInfo limit s.reg e.name
      let n ← cmdCount s.reg
      if e.info.isSome ∧ i.isNone ∧ ¬ n < m then .ok s else do
        let r ← runEvent limit s.reg e
        .ok { s with reg := r, did := s.did ++ [e] }

/-- All of it. -/
def Stroll.moves (limit : Nat → Nat) (m : Nat) (s : Stroll P C) : List (Turn P C) → M (Stroll P C)
  | [] => .ok s
  | c :: cs => do
    let s ← s.move limit m c
    s.moves limit m cs

/-- The limits on names and descriptions. -/
def Turn.fits : Turn P C → Prop
  | .next => True
  | .change e => e.fits

/-- How many changes are registrations. -/
def registrations (evs : List (CmdEvent P C)) : Nat := (evs.filter fun e => e.info.isSome).length

/-- A larger table has a larger limit. -/
def Growing (limit : Nat → Nat) : Prop := ∀ i p q, primes[i]? = some p → primes[i + 1]? = some q → limit p < limit q

/-- There is room for `m` commands: the first table holds as many, or there were as many at some time. -/
def HadRoom (limit : Nat → Nat) (evs : List (CmdEvent P C)) (m : Nat) : Prop :=
  m ≤ limit 53 ∨ ∃ h, h <+: evs ∧ m ≤ (registered h).length

/-- The whole program: it makes the changes `evs`, starts the iterator and then makes the moves `cs`. -/
def stroll (limit : Nat → Nat) (m : Nat) (evs : List (CmdEvent P C)) (cs : List (Turn P C)) : M (Stroll P C) := do
  let r ← runEvents limit (cmdInit limit) evs
  let s ← Stroll.begin r
  s.moves limit m cs

/-- How often the program asks for the next command. -/
def nextsIn : List (Turn P C) → Nat
  | [] => 0
  | .next :: cs => nextsIn cs + 1
  | .change _ :: cs => nextsIn cs

/-- What the iterator showed about one name. -/
def Stroll.about (s : Stroll P C) (name : CStr) : List (CStr × CmdInfo P C × Nat) := s.seen.filter fun r => r.1 = name

end Argtable.Spec
