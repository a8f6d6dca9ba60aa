import Verif.Spec.Entered
import Verif.Spec.Usage
/-!
# What an entry keeps of the arguments given to it, whatever else is wrong
-/

namespace Argtable.Spec

variable {δ : Type}

/-- `Retains lc h args kept`: of the arguments `args`, given to the entry `h` one after the other, it keeps `kept`.  An argument
is kept exactly if the entry takes it together with those kept before (`Takes`: there is room, and the text is admitted). -/
inductive Retains (lc : Libc δ) (h : Hdr (Obj δ)) : List (Option CStr) → List (Option CStr) → Prop
  | nil : Retains lc h [] []
  | keep {args kept : List (Option CStr)} {a : Option CStr} : Retains lc h args kept → Takes lc h (kept ++ [a]) →
      Retains lc h (args ++ [a]) (kept ++ [a])
  | drop {args kept : List (Option CStr)} {a : Option CStr} : Retains lc h args kept → ¬ Takes lc h (kept ++ [a]) →
      Retains lc h (args ++ [a]) kept

/-- The entries without option names. -/
def unnamed {σ : Type} (es : List (Hdr σ)) : List (Hdr σ) := es.filter fun h => !tagged h

end Argtable.Spec
