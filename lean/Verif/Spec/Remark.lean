import Verif.Spec.Outcome
/-!
# Renumbering entries

When an entry is inserted at position `k` of a table, entry number `i` becomes entry number
`shiftIx k i`.
-/

namespace Argtable.Spec

/-- The new number of entry `i` when an entry is inserted at position `k`. -/
def shiftIx (k i : Nat) : Nat := if i < k then i else i + 1

/-- The error record with its parent renumbered. -/
def shiftRec (k : Nat) (e : ErrRec) : ErrRec :=
  { e with parent := match e.parent with
      | .entry i => .entry (shiftIx k i)
      | .endt => .endt }

/-- The results `r` and `r'` of two calls of `arg_parse` are the same, except that the table of `r'` has
the additional entry `h` at position `k`: same return value, same other entries, same error records up
to renumbering. -/
def SameBut {σ : Type} (h : Hdr σ) (k : Nat) (r r' : Nat × Table σ × GState) : Prop :=
  r'.1 = r.1 ∧
  (∃ xs ys, xs.length = k ∧ r.2.1.entries = xs ++ ys ∧ r'.2.1.entries = xs ++ h :: ys) ∧
  r'.2.1.fin.slots.take r'.1 = (r.2.1.fin.slots.take r.1).map (shiftRec k)

end Argtable.Spec
