import Verif.Model.HashWork
import Verif.Spec.Iterate
/-!
# What the command registry costs: vocabulary
-/

namespace Argtable.Spec
open Argtable

variable {P C : Type}

/-- `n` is the largest number of commands that were registered at one time. -/
def IsPeak (evs : List (CmdEvent P C)) (n : Nat) : Prop :=
  (∃ h, h <+: evs ∧ (registered h).length = n) ∧ ∀ h, h <+: evs → (registered h).length ≤ n

/-- Running one event, with its cost. -/
def runEventW (limit : Nat → Nat) (r : Registry P C) : CmdEvent P C → M (Registry P C × HCost)
  | .register n p d c => cmdRegisterW limit r n p d c
  | .unregister n => cmdUnregisterW limit r n

/-- Running a history, with its cost. -/
def runEventsW (limit : Nat → Nat) : Registry P C → List (CmdEvent P C) → M (Registry P C × HCost)
  | r, [] => pure (r, .zero)
  | r, e :: es => do
    let (r, c) ← runEventW limit r e
    let (r, d) ← runEventsW limit r es
    pure (r, c.plus d)

/-- The 32-bit value that decides where a name goes: `enhanced_hash` of `hash_key`. -/
def hashOf (name : CStr) : UInt32 := enhancedHash (cmdFns fun n => n) name

/-- The registered names that go to the same bucket as `name` in a table of size `size`. -/
def sharing (evs : List (CmdEvent P C)) (size : Nat) (name : CStr) : List CStr :=
  (registered evs).filter fun n => (hashOf n).toNat % size = (hashOf name).toNat % size

/-- The registered names with the same 32-bit value as `name`. -/
def colliding (evs : List (CmdEvent P C)) (name : CStr) : List CStr := (registered evs).filter fun n => hashOf n = hashOf name

/-- The load limits of the tables before table number `i`, added up. -/
def outgrown (limit : Nat → Nat) (i : Nat) : Nat := ((primes.take i).map limit).sum

/-- The cost `c` of one search for `name` in a table of size `size`: a name that is not registered is compared with all names of its
bucket that have the same 32-bit value; for a name that is registered, the search may end earlier. -/
structure OneSearch (evs : List (CmdEvent P C)) (size : Nat) (name : CStr) (c : HCost) : Prop where
  moved : c.moved = 0
  looked : c.looked ≤ (sharing evs size name).length
  compared : c.compared ≤ (colliding evs name).length
  absent : latest evs name = none → c.looked = (sharing evs size name).length ∧ c.compared = (colliding evs name).length
  present : (latest evs name).isSome → 1 ≤ c.looked ∧ 1 ≤ c.compared

/-- Names that all have the same 32-bit value: 49 times one of the two blocks `az` and `bY`, according to the bits of `i`. -/
def twin (i : Nat) : CStr := (List.range 49).flatMap fun j => if i.testBit j then ['a', 'z'] else ['b', 'Y']

end Argtable.Spec
