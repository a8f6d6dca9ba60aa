import Verif.Spec.Context
import Verif.Spec.Live
/-!
# Command lines that go on
-/

namespace Argtable.Spec

open Argtable

/-- The last argument is an option that takes the next argument as its value, and there is none: a longer command line would
give it one. -/
def waiting (env : Bool) (ds : List Decl) : List CStr → Bool
  | [] => false
  | a :: rest =>
    if a = ['-', '-'] then false
    else if isOperand a then
      if env then false else waiting env ds rest
    else if usesNext ds a then
      match rest with
      | [] => true
      | _ :: rest' => waiting env ds rest'
    else waiting env ds rest

end Argtable.Spec
