import Verif.Spec.Cmdline
/-!
# Handing out operands

A relational description of how operands are distributed over the untagged entries of a table.
-/

namespace Argtable.Spec

variable {σ : Type}

/-- The scan function `f` accepts all the arguments `as` in order, and the object goes from `p` to `q`. -/
inductive Accepts (f : σ → Option CStr → M (σ × Int)) : σ → List CStr → σ → Prop
  | nil (p : σ) : Accepts f p [] p
  | cons {p p' q : σ} {a : CStr} {as : List CStr} :
      f p (some a) = .ok (p', 0) → Accepts f p' as q → Accepts f p (a :: as) q

/-- An entry that takes operands: it has no option names and a scan function. -/
def TakesOperands (h : Hdr σ) (f : σ → Option CStr → M (σ × Int)) : Prop :=
  h.shortopts = none ∧ h.longopts = none ∧ h.scanfn = some f

/-- `Handout es ops es' left`: the operands `ops` have been handed to the entries `es`, which have
become `es'`, and the operands `left` remain.  The entries are served in table order.  Each one that
takes operands accepts the next segment of `ops`, up to the first operand that it rejects; the other
entries are not touched. -/
inductive Handout : List (Hdr σ) → List CStr → List (Hdr σ) → List CStr → Prop
  | done (ops : List CStr) : Handout [] ops [] ops
  | skip {h : Hdr σ} {t t' : List (Hdr σ)} {ops left : List CStr} :
      (∀ f, ¬ TakesOperands h f) → Handout t ops t' left → Handout (h :: t) ops (h :: t') left
  | take {h : Hdr σ} {t t' : List (Hdr σ)} {seg rest left : List CStr}
      {f : σ → Option CStr → M (σ × Int)} {q : σ} :
      TakesOperands h f → Accepts f h.parent seg q →
      (∀ a, rest.head? = some a → ∃ c, c ≠ 0 ∧ f q (some a) = .ok (q, c)) →
      Handout t rest t' left →
      Handout (h :: t) (seg ++ rest) ({ h with parent := q } :: t') left

/-- The effect of the options alone (after the reset): the entries, and the errors raised. -/
def afterOptions (es : List (Hdr σ)) (evs : List Ev) : M (List (Hdr σ) × List ErrRec) := do
  let es ← resetAll es
  deliverAll evs (es, [])

end Argtable.Spec
