import Verif.Spec.Reorder
import Verif.Spec.Entered
/-!
# A table with one more entry
-/

namespace Argtable.Spec

/-- The argument `a`, if it is read as an option, asks for the long option `p` (which may be an abbreviation): it is
`--p` or `--p=v`, possibly with short options without values between the two minus signs. -/
def AsksFor (ds : List Decl) (a p : CStr) : Prop :=
  ∃ u rest, a = '-' :: (u ++ '-' :: (p ++ rest)) ∧ (∀ c ∈ u, ∃ i, shortLookup c ds 0 = some (i, .no)) ∧
    '=' ∉ p ∧ (rest = [] ∨ ∃ v, rest = '=' :: v)

/-- The names of the new entry `d` cannot be confused with what the arguments ask for: each long option asked for is
written in full, or is not the beginning of a name of `d`. -/
def Unconfused (ds : List Decl) (d : Decl) (args : List CStr) : Prop :=
  ∀ a ∈ args, ∀ p, AsksFor ds a p → (∃ e ∈ ds, p ∈ e.names) ∨ ∀ n ∈ d.names, ¬ p <+: n

end Argtable.Spec
