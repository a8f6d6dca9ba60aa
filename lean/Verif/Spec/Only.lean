import Verif.Model.ParseOnly
import Verif.Spec.Cmdline
import Verif.Spec.Context
/-!
# Command lines in a build with `ARG_LONG_ONLY`

What a command line means when long options may be introduced by a single dash, in the style of
`Spec/Cmdline.lean`: left to right, without getopt.  Declarations, events and what they do (`meaning`) are those of
`Spec/Cmdline.lean`.
-/

namespace Argtable.Spec

/-- What a possibly abbreviated name stands for. -/
inductive NameOnly where
  | unknown
  | ambiguous
  | option (l : Long)
deriving DecidableEq, Repr

/-- The long option denoted by the name `p`: an exact match if there is one, otherwise the only name with prefix `p`.
Two names with this prefix are ambiguous, even if they belong to one entry.  `letter`: `p` starts with a declared
short option; a single letter is then not an abbreviation. -/
def namedOnly (ls : List Long) (letter : Bool) (p : CStr) : NameOnly :=
  match ls.find? (fun l => l.name == p) with
  | some l => .option l
  | none =>
    if letter ∧ p.length = 1 then .unknown
    else match ls.filter (fun l => p.isPrefixOf l.name) with
      | [] => .unknown
      | [l] => .option l
      | _ => .ambiguous

/-- Reading `body`, which is `name` or `name=value`, as a long option; `whole` is the argument it occurs in, `next` the
following argument.  The Boolean tells whether `next` is used up.  `none`: the name is unknown. -/
def readNameOnly (ds : List Decl) (whole : CStr) (next : Option CStr) (letter : Bool) (body : CStr) :
    Option (List Ev × Bool) :=
  match namedOnly (longTable ds 0) letter (body.takeWhile (· ≠ '=')) with
  | .unknown => none
  | .ambiguous => some ([.fail ARG_ELONGOPT (some whole)], false)
  | .option ⟨_, i, kind⟩ =>
    match (if '=' ∈ body then some (body.dropWhile (· ≠ '=')).tail else none : Option CStr), kind with
    | some _, .no => some ([.fail ARG_ELONGOPT (some whole)], false)
    | some v, _ => some (emptyValueError ds i v whole ++ [.deliver i (some v)], false)
    | none, .req =>
      match next with
      | none => some ([.fail ARG_EMISSARG (some whole)], false)
      | some v => some (emptyValueError ds i v v ++ [.deliver i (some v)], true)
    | none, _ => some ([.deliver i none], false)

/-- The same when nothing but a long option is possible. -/
def mustNameOnly (ds : List Decl) (whole : CStr) (next : Option CStr) (body : CStr) : List Ev × Bool :=
  (readNameOnly ds whole next false body).getD ([.fail ARG_ELONGOPT (some whole)], false)

/-- Reading the characters of `whole` after the first `-`, or after the letters already read.  They are a long option if
they can be read as one; otherwise the first of them is a short option and the others are read in the same way.
`none`: all but the last character are short options, and the last is a `-`, which argtable3 never gets past. -/
def readClusterOnly (ds : List Decl) (whole : CStr) (next : Option CStr) : CStr → Option (List Ev × Bool)
  | [] => some ([], false)
  | c :: tl =>
    if c = '-' then
      if tl = [] then none else some (mustNameOnly ds whole next tl)
    else match shortLookup c ds 0 with
      | none => some (mustNameOnly ds whole next (c :: tl))
      | some (i, kind) =>
        match readNameOnly ds whole next true (c :: tl) with
        | some r => some r
        | none =>
          match kind with
          | .no => (readClusterOnly ds whole next tl).map fun (evs, u) => (.deliver i none :: evs, u)
          | .req =>
            if tl ≠ [] then some ([.deliver i (some tl)], false)
            else match next with
              | none => some ([.fail ARG_EMISSARG (some whole)], false)
              | some v => some ([.deliver i (some v)], true)
          | .opt => some ([.deliver i (if tl = [] then none else some tl)], false)

/-- Reading a command line (without program name): the events in order and the operands in order. -/
def tokenizeOnly (ds : List Decl) (posix : Bool) : List CStr → Option (List Ev × List CStr)
  | [] => some ([], [])
  | a :: rest =>
    if a = ['-', '-'] then some ([], rest)
    else if isOperand a then
      if posix then some ([], a :: rest)
      else (tokenizeOnly ds posix rest).map fun (evs, ops) => (evs, a :: ops)
    else
      match readClusterOnly ds a rest.head? a.tail with
      | none => none
      | some (evs, false) =>
        (tokenizeOnly ds posix rest).map fun (evs', ops) => (evs ++ evs', ops)
      | some (evs, true) =>
        match rest with
        | [] => some (evs, [])
        | _ :: rest' => (tokenizeOnly ds posix rest').map fun (evs', ops) => (evs ++ evs', ops)

variable {σ : Type}

/-- `arg_parse` returns `r`. -/
def ReturnsOnly (env : Bool) (argv : List CStr) (t : Table σ) (g : GState) (r : Nat × Table σ × GState) : Prop :=
  ∃ fuel, argParseOnly env fuel argv t g = .ok r

/-- `arg_parse` performs the undefined operation `w`. -/
def CrashesOnly (env : Bool) (argv : List CStr) (t : Table σ) (g : GState) (w : String) : Prop :=
  ∃ fuel, argParseOnly env fuel argv t g = .error (.ub w)

/-- `arg_parse` runs forever. -/
def HangsOnly (env : Bool) (argv : List CStr) (t : Table σ) (g : GState) : Prop :=
  ∀ fuel, argParseOnly env fuel argv t g = .error .fuel

/-- The outcome of `arg_parse` on `argv` is the one of the events `evs` followed by the operands `ops`. -/
def ReadsAsOnly (env : Bool) (t : Table σ) (m : Nat) (argv : List CStr) (evs : List Ev) (ops : List CStr) : Prop :=
  ∀ g, match meaning t.entries evs ops with
    | .ok (es, errs) => ∃ r, ReturnsOnly env argv t g r ∧ Shows m argv g es errs r
    | .error (.ub w) => CrashesOnly env argv t g w
    | .error .fuel => True

/-- The two command lines have the same effect. -/
def SameEffectOnly (env : Bool) (t : Table σ) (argv argv' : List CStr) : Prop :=
  ∀ g g', (∀ r, ReturnsOnly env argv t g r → ∃ r', ReturnsOnly env argv' t g' r' ∧ observe r' = observe r) ∧
          (∀ r', ReturnsOnly env argv' t g' r' → ∃ r, ReturnsOnly env argv t g r ∧ observe r = observe r')

/-- The command line has the same effect in a build with `ARG_LONG_ONLY` as in one without. -/
def SameInBoth (env : Bool) (t : Table σ) (argv : List CStr) : Prop :=
  ∀ g g', (∀ r, Returns env argv t g r → ∃ r', ReturnsOnly env argv t g' r' ∧ observe r' = observe r) ∧
          (∀ r', ReturnsOnly env argv t g' r' → ∃ r, Returns env argv t g r ∧ observe r = observe r')

/-- `pre` is a sequence of complete options and operands, after which the next argument is examined for options. -/
inductive CompleteOnly (env : Bool) (ds : List Decl) : List CStr → Prop
  | nil : CompleteOnly env ds []
  | operand {a : CStr} {pre : List CStr} (h : isOperand a = true) (he : env = false) :
      CompleteOnly env ds pre → CompleteOnly env ds (a :: pre)
  | option {a : CStr} {pre : List CStr} {evs : List Ev} (h : isOption a = true)
      (hr : ∀ next, readClusterOnly ds a next a.tail = some (evs, false)) :
      CompleteOnly env ds pre → CompleteOnly env ds (a :: pre)
  | withValue {a v : CStr} {pre : List CStr} {evs : List Ev} (h : isOption a = true)
      (hr : readClusterOnly ds a (some v) a.tail = some (evs, true)) :
      CompleteOnly env ds pre → CompleteOnly env ds (a :: v :: pre)

/-- The argument `body`, or `body` with the argument after it, gives the long option `l` under its full name, with a
value as the option expects it (none, or one that is not empty); `post` is the rest of the command line. -/
inductive FullName (l : Long) : (body : CStr) → (post : List CStr) → Prop
  | bare (post : List CStr) (h : l.kind ≠ .req) : FullName l l.name post
  | attached (v : CStr) (post : List CStr) (h : l.kind ≠ .no) (hv : v ≠ []) : FullName l (l.name ++ '=' :: v) post
  | separate (v : CStr) (post : List CStr) (h : l.kind = .req) (hv : v ≠ []) : FullName l l.name (v :: post)

/-- The characters are declared short options, up to and including the first that takes a value, and from none of them
on can they be taken for a long option. -/
def Letters (ds : List Decl) : CStr → Prop
  | [] => True
  | c :: tl => c ≠ '-' ∧ namedOnly (longTable ds 0) true ((c :: tl).takeWhile (· ≠ '=')) = .unknown ∧
    ∃ i k, shortLookup c ds 0 = some (i, k) ∧ (k = .no → Letters ds tl)

/-- The argument is `--name` or `--name=value` where `name` is the full name of a long option or the beginning of at most
one. -/
def Dashes (ds : List Decl) (a : CStr) : Prop :=
  ∃ body, a = '-' :: '-' :: body ∧ ((∃ l ∈ longTable ds 0, l.name = body.takeWhile (· ≠ '=')) ∨
    ((longTable ds 0).filter (fun l => (body.takeWhile (· ≠ '=')).isPrefixOf l.name)).length ≤ 1)

/-- Every argument that is examined for options is, if it is one, as described by `Dashes` or `Letters`.  Nothing is
said about the values of options, about operands, and about what comes after `--` or, under POSIXLY_CORRECT (`env`),
after the first operand. -/
inductive Plain (env : Bool) (ds : List Decl) : List CStr → Prop
  | nil : Plain env ds []
  | dashDash (rest : List CStr) : Plain env ds (['-', '-'] :: rest)
  | operand {a : CStr} {rest : List CStr} (h : isOperand a = true) (hr : env = false → Plain env ds rest) :
      Plain env ds (a :: rest)
  | option {a : CStr} {rest : List CStr} (h : isOption a = true) (ha : Dashes ds a ∨ Letters ds a.tail)
      (hu : usesNext ds a = false ∨ rest = []) : Plain env ds rest → Plain env ds (a :: rest)
  | withValue {a v : CStr} {rest : List CStr} (h : isOption a = true) (ha : Dashes ds a ∨ Letters ds a.tail)
      (hu : usesNext ds a = true) : Plain env ds rest → Plain env ds (a :: v :: rest)

end Argtable.Spec
