import Verif.Spec.Regex
/-!
# Deep patterns
-/

namespace Argtable.Spec

/-- `((…(a)…))` with `k` pairs of parentheses. -/
def nested : Nat → Re
  | 0 => .branch false (.last (.chr (.plain 'a')) .once)
  | k + 1 => .branch false (.last (.group true (nested k)) .once)

end Argtable.Spec
