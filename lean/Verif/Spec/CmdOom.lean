import Verif.Model.CmdOom
import Verif.Spec.Pointers
import Verif.Spec.Module
import Verif.Spec.Oom
/-!
# Histories of calls of arg_cmd that may run out of memory

The program has set a panic function that jumps back into the program, which then carries on.
-/

namespace Argtable.Spec

open Argtable

variable {P C : Type}

/-- There is room for everything. -/
def Ample (room : Room) : Prop := room = ⟨true, true, true, true⟩

/-- Running one call; and has it returned? -/
def tryPtr (limit : Nat → Nat) (room : Room) (s : RegMem P C) : PtrEvent P C → M (RegMem P C × Bool)
  | .register n p d c =>
    match memRegisterOom room limit n p d c s with
    | .ok s => .ok (s, true)
    | .error (.panic s) => .ok (s, false)
    | .error (.fault f) => .error f
  | .unregister n => do
    let s ← memUnregister limit n s
    .ok (s, true)

/-- Running a history; and which calls have returned. -/
def tryPtrs (limit : Nat → Nat) : RegMem P C → List (Room × PtrEvent P C) → M (RegMem P C × List Bool)
  | s, [] => .ok (s, [])
  | s, (room, e) :: es => do
    let (s, b) ← tryPtr limit room s e
    let (s, bs) ← tryPtrs limit s es
    .ok (s, b :: bs)

/-- Every call of the history keeps to the rules of C65, in the state in which it is made. -/
def LegalShort (limit : Nat → Nat) : RegMem P C → List (Room × PtrEvent P C) → Prop
  | _, [] => True
  | s, (room, e) :: es => Allowed limit s e ∧ ∀ s' b, tryPtr limit room s e = .ok (s', b) → LegalShort limit s' es

/-- What a call comes to: one that has not returned has taken the command away. -/
def cameTo (e : PtrEvent P C) (returned : Bool) : CmdEvent P C :=
  if returned then e.plain else .unregister e.plain.name

/-- What the calls come to. -/
def cameToAll (hist : List (Room × PtrEvent P C)) (bs : List Bool) : List (CmdEvent P C) :=
  List.zipWith (fun h b => cameTo h.2 b) hist bs

/-- How many calls have not returned. -/
def failures (bs : List Bool) : Nat := bs.count false

/-! ### The module settings -/

/-- Running one call. -/
def tryMod (sup : Supply) (objSize : Nat) (m : ModMem) : ModEvent → OM ModMem ModMem
  | .name n => setModuleNameOom sup n m
  | .version a b c tag => setModuleVersionOom sup objSize a b c tag m

/-- The call runs out of memory, and leaves things as in `m'`. -/
def RunsOut (sup : Supply) (objSize : Nat) (m : ModMem) (e : ModEvent) (m' : ModMem) : Prop :=
  tryMod sup objSize m e = .error (.panic m')

/-- The call can no longer be made: it never returns, and if there is enough memory it does something undefined. -/
def Ruined (m : ModMem) (e : ModEvent) : Prop :=
  (∀ sup objSize m', tryMod sup objSize m e ≠ .ok m') ∧
  ∀ sup objSize, Plenty sup → ∃ what, tryMod sup objSize m e = .error (.fault (.ub what))

end Argtable.Spec
