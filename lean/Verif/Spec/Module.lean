import Verif.Model.ModMem
import Verif.Spec.Help
import Verif.Spec.Dstr
/-!
# Histories of calls that set the module name and version
-/

namespace Argtable.Spec

/-- Running one call, with memory. -/
def runModMem (m : ModMem) : ModEvent → M ModMem
  | .name n => setModuleNameMem n m
  | .version a b c tag => setModuleVersionMem a b c tag m

/-- Running a history. -/
def runModsMem : ModMem → List ModEvent → M ModMem
  | m, [] => .ok m
  | m, e :: es => do runModsMem (← runModMem m e) es

/-- The strings are C strings, the tag is not larger than 499 MB, the numbers are `int`s. -/
def ModEvent.Sane : ModEvent → Prop
  | .name n => '\x00' ∉ n
  | .version a b c tag => '\x00' ∉ tag ∧ tag.length ≤ 499000000 ∧
      ∀ x ∈ [a, b, c], -2147483648 ≤ x ∧ x ≤ 2147483647

/-- Was a name set? -/
def named (evs : List ModEvent) : Bool := evs.any fun | .name _ => true | _ => false

/-- Was a version set? -/
def versioned (evs : List ModEvent) : Bool := evs.any fun | .version .. => true | _ => false

end Argtable.Spec
