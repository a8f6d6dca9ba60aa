import Verif.Spec.Cmdline
/-!
# Well-formed tables

The side conditions on option declarations under which argtable3 reads the command line as specified.
They exclude option characters that collide with getopt's reserved characters and return codes, and
`longopts` strings that are empty or start with a comma (see C15 for what happens then).
-/

namespace Argtable.Spec

/-- Side conditions on one declaration. -/
structure Decl.WF (d : Decl) : Prop where
  /-- no NUL, `:`, `;`, `?` or byte 255 as short option -/
  short : ∀ s, d.short = some s → ∀ c ∈ s, c ≠ '\x00' ∧ c ≠ ':' ∧ c ≠ ';' ∧ c ≠ '?' ∧ c ≠ '\xff'
  /-- `longopts` is NULL or a non-empty string not starting with a comma -/
  long : ∀ s, d.long = some s → s ≠ [] ∧ s.head? ≠ some ','

/-- A well-formed set of declarations. -/
def WF (ds : List Decl) : Prop := ∀ d ∈ ds, d.WF

/-- Command-line arguments are C strings: no NUL inside. -/
def CArgs (args : List CStr) : Prop := ∀ a ∈ args, '\x00' ∉ a

/-- An `arg_end` as built by `arg_end(m)` with `m ≥ 1`. -/
structure EndOK (m : Nat) (e : EndTbl) : Prop where
  pos : 1 ≤ m
  max : e.maxcount = m
  len : e.slots.length = m

end Argtable.Spec
