import Verif.Base

/-!
# Specification vocabulary for sorting
-/

namespace Argtable.Spec

/-- What is required of a comparison function: the sign changes with the order of the arguments and
"not greater" is transitive.  Different elements may compare equal. -/
structure Comparison {α : Type} (cmp : α → α → Int) : Prop where
  flip : ∀ a b, cmp a b < 0 ↔ 0 < cmp b a
  trans : ∀ a b c, cmp a b ≤ 0 → cmp b c ≤ 0 → cmp a c ≤ 0

/-- Every element is not greater than any later one. -/
def Ascending {α : Type} (cmp : α → α → Int) (l : List α) : Prop := l.Pairwise (fun a b => cmp a b ≤ 0)

end Argtable.Spec
