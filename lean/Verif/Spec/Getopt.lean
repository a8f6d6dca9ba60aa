import Verif.Spec.Cmdline
import Verif.Model.Getopt
/-!
# What the getopt functions return

The bundled `getopt`, `getopt_long` and `getopt_long_only` as seen by a program that calls one of them until it
returns -1, for any option string and any array of long options.  The description goes through the arguments from
left to right; it has no indices, no scanning pointer and does not move arguments.

Shared with the model: `LongOpt` (`struct option`), the state `GState` whose global variables the caller sees, and
`isOperand` (Spec/Cmdline.lean).
-/

namespace Argtable.Spec.Getopt

/-- The function called, with its array of long options. -/
inductive Fn where
  | getopt
  | getoptLong (longs : List LongOpt)
  | getoptLongOnly (longs : List LongOpt)

/-- The call. -/
def Fn.call (fn : Fn) (posixEnv : Bool) (nargc : Nat) (optstring : CStr) (g : GState) : M (Int × GState) :=
  match fn with
  | .getopt => Argtable.getopt posixEnv nargc optstring g
  | .getoptLong longs => Argtable.getoptLong posixEnv nargc optstring longs g
  | .getoptLongOnly longs => Argtable.getoptLongOnly posixEnv nargc optstring longs g

/-- The long options; `getopt` has none. -/
def Fn.longs : Fn → Option (List LongOpt)
  | .getopt => none
  | .getoptLong longs => some longs
  | .getoptLongOnly longs => some longs

/-- A single dash may introduce a long option. -/
def Fn.only : Fn → Bool
  | .getoptLongOnly _ => true
  | _ => false

/-! ### The program's loop -/

/-- What the program sees after a call: the code returned, the variables `optarg` and `optopt`, the variable that
the long options store to, and the messages written so far (each without the program's name before it and the newline
after it). -/
structure Obs where
  code : Int
  optarg : Option CStr
  optopt : Int
  stored : Nat
  messages : List CStr
deriving DecidableEq, Repr

/-- The observation after a call. -/
def see (code : Int) (g : GState) : Obs := ⟨code, g.optarg, g.optopt, g.getoptval, g.stderr⟩

/-- `while ((c = getopt(...)) != -1) ...`, at most `n` calls: the observations, and the state at the end. -/
def loop (call : GState → M (Int × GState)) : Nat → GState → M (List Obs × GState)
  | 0, _ => .error .fuel
  | n + 1, g => do
    let (c, g') ← call g
    if c = -1 then .ok ([], g')
    else do
      let (l, gf) ← loop call n g'
      .ok (see c g' :: l, gf)

/-! ### What is found on the command line -/

/-- One result. -/
inductive Found where
  /-- an operand, in a program that wants them in order -/
  | operand (a : CStr)
  /-- a short option -/
  | short (c : Char) (arg : Option CStr)
  /-- a long option -/
  | long (o : LongOpt) (arg : Option CStr)
  /-- a mistake, with the new value of `optopt`; `missing`: an argument is missing -/
  | bad (msg : CStr) (missing : Bool) (optopt : Int)
deriving DecidableEq, Repr

/-- The observation that a result leads to; `opts` is the option string without a leading `+` or `-`, `opterr` the
variable of that name, `o` what was seen before. -/
def Found.seen (opts : CStr) (opterr : Bool) (o : Obs) : Found → Obs
  | .operand a => { o with code := 1, optarg := some a }
  | .short c arg => { o with code := charInt c, optarg := arg }
  | .long l arg => if l.flag then { o with code := 0, optarg := arg, stored := l.val }
      else { o with code := l.val, optarg := arg }
  | .bad msg missing opt => { o with
      code := if missing ∧ opts.head? = some ':' then charInt ':' else charInt '?'
      optarg := none
      optopt := opt
      messages := if opterr ∧ opts.head? ≠ some ':' then o.messages ++ [msg] else o.messages }

/-- The observations that a list of results leads to. -/
def trace (opts : CStr) (opterr : Bool) : Obs → List Found → List Obs
  | _, [] => []
  | o, f :: fs => f.seen opts opterr o :: trace opts opterr (f.seen opts opterr o) fs

/-- What is seen last. -/
def last (opts : CStr) (opterr : Bool) (o : Obs) (fs : List Found) : Obs := fs.foldl (Found.seen opts opterr) o

/-- Two long options mean the same. -/
def Same (a b : LongOpt) : Prop := a.hasArg = b.hasArg ∧ a.flag = b.flag ∧ a.val = b.val

instance (a b : LongOpt) : Decidable (Same a b) := inferInstanceAs (Decidable (_ ∧ _ ∧ _))

/-- The meaning of a name. -/
inductive Meaning where
  | unknown
  | ambiguous
  | means (o : LongOpt)
deriving DecidableEq, Repr

/-- The meaning of the possibly abbreviated name `p`: an option of this name if there is one, otherwise the first
option whose name starts with `p` provided there is no other, or (unless `only`) all others mean the same.  If
`shortToo`, one character is not taken for an abbreviation. -/
def resolveName (longs : List LongOpt) (only shortToo : Bool) (p : CStr) : Meaning :=
  match longs.find? (fun l => l.name = p) with
  | some l => .means l
  | none =>
    match longs.filter (fun l => p.isPrefixOf l.name ∧ ¬ (shortToo = true ∧ p.length = 1)) with
    | [] => .unknown
    | l :: rest => if ∀ m ∈ rest, only = false ∧ Same m l then .means l else .ambiguous

/-- The text after the first `=`. -/
def valueOf (body : CStr) : Option CStr := if '=' ∈ body then some (body.dropWhile (· ≠ '=')).tail else none

/-- `optopt` after a mistake in using a long option. -/
def optoptOf (o : LongOpt) : Int := if o.flag then 0 else o.val

/-- Reading the long option `body` (`name` or `name=value`), introduced by `dash`, followed by the arguments `next`: the
result and the number of further arguments used; `none` if the name is unknown. -/
def readLong (longs : List LongOpt) (only shortToo : Bool) (dash body : CStr) (next : List CStr) : Option (Found × Nat) :=
  let name := body.takeWhile (· ≠ '=')
  match resolveName longs only shortToo name with
  | .unknown => none
  | .ambiguous => some (.bad (cs "option `" ++ dash ++ name ++ cs "' is ambiguous") false 0, 0)
  | .means o =>
    match valueOf body with
    | some v =>
      if o.hasArg = 0 then
        some (.bad (cs "option `" ++ dash ++ name ++ cs "' doesn't allow an argument") false (optoptOf o), 0)
      else if o.hasArg = 1 ∨ o.hasArg = 2 then some (.long o (some v), 0)
      else some (.long o none, 0)
    | none =>
      if o.hasArg = 1 then
        match next with
        | [] => some (.bad (cs "option `" ++ dash ++ name ++ cs "' requires an argument") true (optoptOf o), 0)
        | v :: _ => some (.long o (some v), 1)
      else some (.long o none, 0)

/-- The same; an unknown name is a mistake. -/
def mustLong (longs : List LongOpt) (only : Bool) (dash body : CStr) (next : List CStr) : Found × Nat :=
  (readLong longs only false dash body next).getD (.bad (cs "unrecognized option `" ++ dash ++ body ++ cs "'") false 0, 0)

/-- How an argument ends: go on after using `k` further arguments, return -1 at once, or return to the same argument
for ever. -/
inductive Ending where
  | next (k : Nat)
  | halt
  | again
deriving DecidableEq, Repr

/-- How the option string describes a letter. -/
inductive Letter where
  | unknown
  | longName
  | plain
  | needs
  | takes
deriving DecidableEq, Repr

/-- What follows the letter in the option string: `W;` announces a long option (if there are any), `:` an argument,
`::` an optional argument. -/
def letterOf (hasLongs : Bool) (c : Char) : CStr → Letter
  | [] => .unknown
  | d :: tl =>
    if c ≠ d then letterOf hasLongs c tl
    else if hasLongs = true ∧ c = 'W' ∧ tl.head? = some ';' then .longName
    else match tl with
      | ':' :: ':' :: _ => .takes
      | ':' :: _ => .needs
      | _ => .plain

/-- The characters `c :: tl` of an argument, after its first dash or after the letters already read, read as a long
option.  With long options, another dash introduces one; for `getopt_long_only` any character does, but if it is a known
letter, a name that is not known is not a mistake. -/
def asLong (fn : Fn) (opts : CStr) (next : List CStr) (c : Char) (tl : CStr) : Option (List Found × Ending) :=
  match fn.longs with
  | none => none
  | some longs =>
    if c = '-' then
      if tl = [] then some ([], .again)
      else let (f, k) := mustLong longs fn.only (cs "--") tl next; some ([f], .next k)
    else if fn.only then
      if c ≠ ':' ∧ c ∈ opts then
        (readLong longs true true (cs "-") (c :: tl) next).map fun (f, k) => ([f], .next k)
      else let (f, k) := mustLong longs true (cs "-") (c :: tl) next; some ([f], .next k)
    else none

/-- The same characters read as a letter; `others` is what the characters after it are read as.  `posix`: whether
`POSIXLY_CORRECT` is respected, on which a message depends. -/
def asLetter (fn : Fn) (posix : Bool) (opts : CStr) (next : List CStr) (c : Char) (tl : CStr) (others : List Found × Ending) :
    List Found × Ending :=
  match (if c = ':' ∨ (c = '-' ∧ tl ≠ []) then .unknown else letterOf fn.longs.isSome c opts) with
  | .unknown =>
    if c = '-' ∧ tl = [] then ([], .halt)
    else (.bad (cs (if posix then "illegal option -- " else "invalid option -- ") ++ [c]) false (charInt c) :: others.1, others.2)
  | .longName =>
    if tl ≠ [] then let (f, k) := mustLong (fn.longs.getD []) fn.only (cs "-W ") tl next; ([f], .next k)
    else match next with
      | [] => ([.bad (cs "option requires an argument -- " ++ [c]) true (charInt c)], .next 0)
      | v :: next => let (f, k) := mustLong (fn.longs.getD []) fn.only (cs "-W ") v next; ([f], .next (k + 1))
  | .plain => (.short c none :: others.1, others.2)
  | .needs =>
    if tl ≠ [] then ([.short c (some tl)], .next 0)
    else match next with
      | [] => ([.bad (cs "option requires an argument -- " ++ [c]) true (charInt c)], .next 0)
      | v :: _ => ([.short c (some v)], .next 1)
  | .takes => ([.short c (if tl = [] then none else some tl)], .next 0)

/-- Reading the characters of an argument after the first dash; `next` are the arguments that follow. -/
def readArg (fn : Fn) (posix : Bool) (opts : CStr) (next : List CStr) : CStr → List Found × Ending
  | [] => ([], .next 0)
  | c :: tl =>
    match asLong fn opts next c tl with
    | some r => r
    | none => asLetter fn posix opts next c tl (readArg fn posix opts next tl)

/-- What becomes of operands: moved behind the options, the end of the options, or returned in order. -/
inductive Operands where
  | moved
  | stop
  | inOrder
deriving DecidableEq, Repr

/-- The option string and the environment variable `POSIXLY_CORRECT` decide; `getopt` never moves arguments. -/
def Fn.operands (fn : Fn) (posix : Bool) (optstring : CStr) : Operands :=
  if optstring.head? = some '-' then .inOrder
  else if posix = true ∨ optstring.head? = some '+' then .stop
  else match fn with
    | .getopt => .stop
    | _ => .moved

/-- The option string without a leading `+` or `-`. -/
def bare (optstring : CStr) : CStr :=
  if optstring.head? = some '+' ∨ optstring.head? = some '-' then optstring.tail else optstring

/-- Reading the arguments, the first `skip` of which are used up: the results and the operands that remain; `none` if
the loop does not end. -/
def readArgs (fn : Fn) (posix : Bool) (opts : CStr) (mode : Operands) : (skip : Nat) → List CStr → Option (List Found × List CStr)
  | _, [] => some ([], [])
  | skip + 1, _ :: rest => readArgs fn posix opts mode skip rest
  | 0, a :: rest =>
    if a = ['-', '-'] then some ([], rest)
    else if isOperand a then
      match mode with
      | .moved => (readArgs fn posix opts mode 0 rest).map fun (fs, ops) => (fs, a :: ops)
      | .stop => some ([], a :: rest)
      | .inOrder => (readArgs fn posix opts mode 0 rest).map fun (fs, ops) => (.operand a :: fs, ops)
    else
      match readArg fn posix opts rest a.tail with
      | (fs, .next k) => (readArgs fn posix opts mode k rest).map fun (fs', ops) => (fs ++ fs', ops)
      | (fs, .halt) => some (fs, a :: rest)
      | (_, .again) => none

/-! ### The first call -/

/-- The program may start: the variables have the values they have when the program starts, or `optind` was set to 0 or
`optreset` to 1 to read another vector. -/
def Fresh (g : GState) : Prop :=
  g.optind = 0 ∨ g.optreset = true ∨ (g.place = [] ∧ g.nonoptStart = none ∧ g.nonoptEnd = none)

/-- `optind` to start with. -/
def first (g : GState) : Nat := if g.optind = 0 then 1 else g.optind

/-- Whether `POSIXLY_CORRECT` is respected: as in the environment (`env`) when the first vector was started, and looked
up again when another is started with `optind` 0 or `optreset` 1. -/
def posix (env : Bool) (g : GState) : Bool :=
  if g.optreset = true ∨ g.optind = 0 then env else g.posixly.getD env

end Argtable.Spec.Getopt
