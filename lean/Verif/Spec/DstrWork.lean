import Verif.Spec.Dstr
import Verif.Model.DstrWork

/-!
# What an arg_dstr may cost
-/

namespace Argtable.Spec

/-- How many bytes are allocated. -/
def allocatedBytes (h : Heap) : Nat := ((liveBlocks h).map List.length).sum

/-- A call that appends one character or one string. -/
def DCmd.appends : DCmd → Bool
  | .cat _ => true
  | .catc _ => true
  | _ => false

/-- How many blocks the client itself asks for in a call of `arg_dstr_cat` or `arg_dstr_catc`: one for the string. -/
def DCmd.lends : DCmd → Nat
  | .cat _ => 1
  | _ => 0

/-- Appending character after character with `arg_dstr_catc`, with the counter. -/
def catcAllN (st : DState) : List Char → Counted DState
  | [] => pure st
  | c :: cs => do
    let st ← dstrCatcN st c
    catcAllN st cs

end Argtable.Spec
