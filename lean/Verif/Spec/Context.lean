import Mathlib.Data.List.Forall2
import Verif.Spec.Outcome
/-!
# Comparing command lines

Vocabulary for the statements "these two command lines have the same effect".
-/

namespace Argtable.Spec

variable {σ : Type}

/-- What a caller can observe when `arg_parse` has returned: the return value, all table entries, and
the recorded errors. -/
def observe (r : Nat × Table σ × GState) : Nat × List (Hdr σ) × List ErrRec :=
  (r.1, r.2.1.entries, r.2.1.fin.slots.take r.2.1.fin.count)

/-- If `arg_parse` returns for one of the two command lines then it does so for the other, with the
same observable result; and this whatever getopt's variables contain before each call. -/
def SameEffect (env : Bool) (t : Table σ) (argv argv' : List CStr) : Prop :=
  ∀ g g', (∀ r, Returns env argv t g r → ∃ r', Returns env argv' t g' r' ∧ observe r' = observe r) ∧
          (∀ r', Returns env argv' t g' r' → ∃ r, Returns env argv t g r ∧ observe r = observe r')

/-- `a` is an option argument: neither an operand nor `--`. -/
def isOption (a : CStr) : Bool := !isOperand a && a != ['-', '-']

/-- Does the option argument `a` (say `-o` or `--out`) use up the argument after it, if there is one? -/
def usesNext (ds : List Decl) (a : CStr) : Bool :=
  match readCluster ds a (some []) a.tail with
  | some (_, u) => u
  | none => false

/-- `pre` is a sequence of complete options and operands: it contains no `--`, and its last option
does not wait for a value. -/
def complete (ds : List Decl) : List CStr → Bool
  | [] => true
  | a :: rest =>
    if a = ['-', '-'] then false
    else if isOperand a then complete ds rest
    else if usesNext ds a then
      match rest with
      | [] => false
      | _ :: rest' => complete ds rest'
    else complete ds rest

/-- `pre` contains no operand. -/
def optionsOnly (ds : List Decl) : List CStr → Bool
  | [] => true
  | a :: rest =>
    if a = ['-', '-'] then false
    else if isOperand a then false
    else if usesNext ds a then
      match rest with
      | [] => false
      | _ :: rest' => optionsOnly ds rest'
    else optionsOnly ds rest

/-- `pre` is complete and the argument after it is still examined for options: under POSIXLY_CORRECT
(`env`) there must be no operand in `pre`. -/
def stillOn (env : Bool) (ds : List Decl) (pre : List CStr) : Bool :=
  if env then optionsOnly ds pre else complete ds pre

/-- The outcome of `arg_parse` on `argv` is the one of the events `evs` followed by the operands `ops`,
whatever getopt's variables contain before. -/
def ReadsAs (env : Bool) (t : Table σ) (m : Nat) (argv : List CStr) (evs : List Ev) (ops : List CStr) :
    Prop :=
  ∀ g, match meaning t.entries evs ops with
    | .ok (es, errs) => ∃ r, Returns env argv t g r ∧ Shows m argv g es errs r
    | .error (.ub w) => Crashes env argv t g w
    | .error .fuel => True

/-- The option arguments of a complete command line, with their separate values. -/
def optionPart (ds : List Decl) : List CStr → List CStr
  | [] => []
  | a :: rest =>
    if isOperand a then optionPart ds rest
    else if usesNext ds a then
      match rest with
      | [] => [a]
      | v :: rest' => a :: v :: optionPart ds rest'
    else a :: optionPart ds rest

/-- The operands of a complete command line. -/
def operandPart (ds : List Decl) : List CStr → List CStr
  | [] => []
  | a :: rest =>
    if isOperand a then a :: operandPart ds rest
    else if usesNext ds a then
      match rest with
      | [] => []
      | _ :: rest' => operandPart ds rest'
    else operandPart ds rest

/-- `a` is a cluster of short flags or unknown characters that ends in `-`, such as `-a-`. -/
def Stuck (ds : List Decl) (a : CStr) : Prop :=
  ∃ fs, fs ≠ [] ∧ a = '-' :: (fs ++ ['-']) ∧
    ∀ c ∈ fs, c ≠ '-' ∧ ∀ i k, shortLookup c ds 0 = some (i, k) → k = .no

/-- `p` denotes the long option `l` of the list `ls`: either `l` is the first option named `p`, or no
option is named `p`, `l` is the first option whose name starts with `p`, and all options whose names
start with `p` belong to the same entry and have the same value kind. -/
def Denotes (ls : List Long) (p : CStr) (l : Long) : Prop :=
  (∃ before after, ls = before ++ l :: after ∧ l.name = p ∧ ∀ k ∈ before, k.name ≠ p) ∨
  ((∀ k ∈ ls, k.name ≠ p) ∧
   (∃ before after, ls = before ++ l :: after ∧ p <+: l.name ∧ ∀ k ∈ before, ¬ p <+: k.name) ∧
   ∀ k ∈ ls, p <+: k.name → k.entry = l.entry ∧ k.kind = l.kind)

/-- `h'` is `h` with another value part. -/
def SameHdr (h h' : Hdr σ) : Prop := h' = { h with parent := h'.parent }

/-- The two lists of entries agree in everything except the value parts. -/
def Frame (es es' : List (Hdr σ)) : Prop := List.Forall₂ SameHdr es es'

/-- `t'` is what `t` has become after any number of calls of `arg_parse` that returned, with any
command lines, settings of POSIXLY_CORRECT and states of getopt's variables. -/
inductive After (t : Table σ) : Table σ → Prop
  | refl : After t t
  | parse {t' : Table σ} (env : Bool) (argv : List CStr) (g : GState) (r : Nat × Table σ × GState) :
      After t t' → CArgs argv.tail → Returns env argv t' g r → After t r.2.1

end Argtable.Spec
