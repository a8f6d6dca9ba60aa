import Verif.Spec.Print
import Verif.Spec.Express
/-!
# Following the usage line

The line that `arg_print_syntax` prints is an instruction: write the switches in one argument, then each item as often as it
is shown, with values in place of the data types.  A *plan* says, for each entry of a table, what its user writes there: one
`some v` for each mention with the value `v`, one `none` for each mention without a value.
-/

namespace Argtable.Spec

variable {σ δ : Type}

/-- The arguments written for one mention of an entry, in the form in which `arg_print_syntax` shows it: `-c` and the value in
the next argument, `--name=value`, or just the value. -/
def mentionArgs (h : Hdr σ) (v : Option CStr) : List CStr :=
  match h.shortopts, h.longopts, v with
  | some so, _, some v => ['-' :: so.take 1, v]
  | some so, _, none => ['-' :: so.take 1]
  | none, some lo, some v => [cs "--" ++ (namesOf lo).headD [] ++ cs "=" ++ v]
  | none, some lo, none => [cs "--" ++ (namesOf lo).headD []]
  | none, none, some v => [v]
  | none, none, none => []

/-- The entry has an option name. -/
def tagged (h : Hdr σ) : Bool := h.shortopts.isSome || h.longopts.isSome

/-- A switch that must be given. -/
def mustSwitch (h : Hdr σ) : Bool := Switch h && decide (1 ≤ h.mincount)

/-- A switch that may be left out. -/
def maySwitch (h : Hdr σ) : Bool := Switch h && !decide (1 ≤ h.mincount)

/-- The letters of the switches that the plan uses: first those that must be given, then the others. -/
def switchLetters (plan : List (Hdr σ × List (Option CStr))) : CStr :=
  ((plan.filter fun p => mustSwitch p.1 && !p.2.isEmpty) ++ plan.filter fun p => maySwitch p.1 && !p.2.isEmpty).flatMap
    fun p => (p.1.shortopts.getD []).take 1

/-- The command line of a plan: the switches in one argument, then the mentions of the other entries in table order. -/
def followed (plan : List (Hdr σ × List (Option CStr))) : List CStr :=
  (if switchLetters plan = [] then [] else ['-' :: switchLetters plan]) ++
    (plan.filter fun p => !Switch p.1).flatMap fun p => p.2.flatMap (mentionArgs p.1)

/-- The operands of a plan, divided over the entries. -/
def operandsOf (plan : List (Hdr σ × List (Option CStr))) : List (List CStr) :=
  plan.map fun p => if tagged p.1 then [] else p.2.filterMap id

/-- What the usage line shows of an entry is how the entry works: a value after an option letter may not be left out, and a data
type is shown exactly for the entries with values (remarks aside); names are not empty. -/
structure Honest (h : Hdr (Obj δ)) : Prop where
  certain : h.shortopts.isSome = true → h.hasOptValue = false
  shown : isRem h.parent = false → h.datatype.isSome = h.hasValue
  letters : h.shortopts ≠ some []
  names : ∀ lo, h.longopts = some lo → namesOf lo ≠ []

/-- The plan does what the usage line says for one entry: a switch is given once, or not at all if it is shown in brackets;
any other entry is mentioned at least `mincount` times, with values exactly where a data type is shown (a data type in brackets
may be left out); a remark asks for nothing.  A value after `=` is not empty, an operand does not look like an option. -/
structure Obeys (h : Hdr (Obj δ)) (vs : List (Option CStr)) : Prop where
  remark : isRem h.parent = true → vs = []
  switch : Switch h = true → vs = [none] ∨ vs = [] ∧ h.mincount ≤ 0
  least : Switch h = false → isRem h.parent = false → h.mincount ≤ vs.length
  filled : ∀ v ∈ vs, v ≠ none → h.datatype ≠ none
  bare : none ∈ vs → tagged h = true ∧ (h.datatype = none ∨ h.hasOptValue = true)
  equals : h.shortopts = none → h.longopts ≠ none → some [] ∉ vs
  operand : tagged h = false → ∀ v, some v ∈ vs → isOperand v = true

/-- The ways to write an option with the value `v` (`none`: without a value), as listed by `arg_print_syntaxv` and the
glossaries: any of its letters or names, the value in the next argument, or after `=` for a name. -/
def Alternative (h : Hdr σ) (v : Option CStr) (args : List CStr) : Prop :=
  (∃ c ∈ h.shortopts.getD [], args = ['-', c] :: v.toList) ∨
  (∃ n ∈ (h.longopts.map namesOf).getD [], args = (cs "--" ++ n) :: v.toList) ∨
  ∃ n ∈ (h.longopts.map namesOf).getD [], ∃ w, v = some w ∧ args = [cs "--" ++ n ++ '=' :: w]

/-- All letters and names of an option, as they are shown. -/
def namesShown (h : Hdr σ) : List CStr :=
  (h.shortopts.getD []).map (fun c => ['-', c]) ++ ((h.longopts.map namesOf).getD []).map (cs "--" ++ ·)

end Argtable.Spec
