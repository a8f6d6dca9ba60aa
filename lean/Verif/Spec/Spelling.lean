import Verif.Spec.Entered
/-!
# Spellings of options

The same assignment of values to entries can be written in several ways: `-v -o x`, `-vox`, `--verbose --out=x`, ...
-/

namespace Argtable.Spec

/-- `Options ds args gs`: the arguments `args` are options, each complete, which give the values `gs`. -/
inductive Options (ds : List Decl) : List CStr → List (Nat × Option CStr) → Prop
  | nil : Options ds [] []
  | option {body : CStr} {rest : List CStr} {g gs : List (Nat × Option CStr)} :
      body ≠ [] → Body ds body g none → Options ds rest gs → Options ds (('-' :: body) :: rest) (g ++ gs)
  | optionValue {body v : CStr} {rest : List CStr} {g gs : List (Nat × Option CStr)} :
      Body ds body g (some v) → Options ds rest gs → Options ds (('-' :: body) :: v :: rest) (g ++ gs)

end Argtable.Spec
