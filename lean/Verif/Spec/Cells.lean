import Verif.Model.Cells
/-!
# What an array of pointers is as a table
-/

namespace Argtable.Spec

variable {σ : Type}

/-- What ends a table. -/
inductive TabEnd where
  | null
  | fin (e : EndTbl)

/-- `TableAt mem table es e`: the array `table` begins with pointers to the entries `es`, and then comes `e`, a NULL pointer or a
pointer to an `arg_end`.  What follows does not matter. -/
inductive TableAt (mem : ObjMem σ) : List (Option Nat) → List (Hdr σ) → TabEnd → Prop
  | null (rest : List (Option Nat)) : TableAt mem (none :: rest) [] .null
  | fin {p : Nat} {e : EndTbl} (rest : List (Option Nat)) : mem p = some (.fin e) → TableAt mem (some p :: rest) [] (.fin e)
  | entry {p : Nat} {h : Hdr σ} {rest : List (Option Nat)} {es : List (Hdr σ)} {e : TabEnd} : mem p = some (.entry h) →
      TableAt mem rest es e → TableAt mem (some p :: rest) (h :: es) e

end Argtable.Spec
