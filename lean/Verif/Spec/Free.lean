import Verif.Model.Free
/-!
# Vocabulary for pointer tables
-/

namespace Argtable.Spec

/-- The entries before position `i` are allocated objects other than the terminator. -/
def AllOrdinary (heap : FlagHeap) (t : List (Option Nat)) (i : Nat) : Prop :=
  ∀ j < i, ∃ p, t[j]? = some (some p) ∧ heap p = some false

/-- The heap without the objects at addresses `l`. -/
def without (heap : FlagHeap) (l : List Nat) : FlagHeap := fun q => if q ∈ l then none else heap q

/-- The non-NULL pointers of an array, in order. -/
def pointers (t : List (Option Nat)) : List Nat := t.filterMap id

end Argtable.Spec
