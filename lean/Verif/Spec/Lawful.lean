import Verif.Model.Parse
import Verif.Spec.Cmdline
/-!
# Invariants of table entries

`Lawful A J E`: `J` is an invariant of table entries.  The reset function of an entry that satisfies `J`,
and its scan function applied to an argument in `A`, keep `J`; if they perform an undefined operation
then only one in `E`.
-/

namespace Argtable.Spec

variable {σ : Type}

/-- The callbacks of entries that satisfy `J` keep `J`, if the arguments they get satisfy `A`; their faults satisfy `E`. -/
structure Lawful (A : Option CStr → Prop) (J : Hdr σ → Prop) (E : Fault → Prop) : Prop where
  reset : ∀ h f, J h → h.resetfn = some f →
    match f h.parent with
    | .ok p => J { h with parent := p }
    | .error e => E e
  scan : ∀ h f a, J h → A a → h.scanfn = some f →
    match f h.parent a with
    | .ok (p, _) => J { h with parent := p }
    | .error e => E e

/-- Any argument. -/
def AnyArg (_ : Option CStr) : Prop := True

/-- All values and operands of a command line that reads as `(evs, ops)` are in `A`. -/
def ArgsIn (A : Option CStr → Prop) (evs : List Ev) (ops : List CStr) : Prop :=
  (∀ i a, Ev.deliver i a ∈ evs → A a) ∧ ∀ a ∈ ops, A (some a)

end Argtable.Spec
