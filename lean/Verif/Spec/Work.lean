import Verif.Spec.Cmdline
/-!
# Specification: the size of a command line
-/

namespace Argtable.Spec

/-- The number of characters of a command line. -/
def chars : List CStr → Nat
  | [] => 0
  | a :: args => a.length + chars args

end Argtable.Spec
