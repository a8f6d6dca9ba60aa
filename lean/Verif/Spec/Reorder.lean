import Verif.Spec.Context
/-!
# The order of the entries in a table
-/

namespace Argtable.Spec

/-- The long names declared. -/
def Decl.names (d : Decl) : List CStr := (d.long.map namesOf).getD []

/-- The two entries have no option name in common. -/
def Apart (d e : Decl) : Prop :=
  (∀ c ∈ d.short.getD [], c ∉ e.short.getD []) ∧ ∀ n ∈ d.names, n ∉ e.names

/-- An entry without option names that is offered operands (a remark is not). -/
def operandEntry {σ : Type} (h : Hdr σ) : Bool := h.shortopts.isNone && h.longopts.isNone && h.scanfn.isSome

/-- The entry has an option name. -/
def Decl.Named (d : Decl) : Prop := d.short.getD [] ≠ [] ∨ d.names ≠ []

end Argtable.Spec
