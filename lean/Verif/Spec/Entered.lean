import Verif.Spec.Stored
import Verif.Spec.RegexDet
import Verif.Spec.Context
/-!
# Command lines without errors

A grammar of the command lines that contain only known options with well-placed values and operands (`Line`), the
texts that an entry admits (`Admits`), and the division of the operands over the entries that takes as many operands
as possible for each entry in turn (`Greedy`).  None of this mentions scan functions or error codes.
-/

namespace Argtable.Spec

variable {δ : Type}

/-- A value `v` may be empty, except for a long option of an entry that requires a value. -/
def Filled (ds : List Decl) (i : Nat) (v : CStr) : Prop := v = [] → ds[i]?.map (·.hasValue) ≠ some true

/-- `Body ds body gs sep`: the characters `body` after the `-` of an argument give the entries numbered in `gs` the
values in `gs`; if `sep` is `some v`, the last value is the argument `v` after this one. -/
inductive Body (ds : List Decl) : CStr → List (Nat × Option CStr) → Option CStr → Prop
  /-- nothing left -/
  | stop : Body ds [] [] none
  /-- a short option without a value, and more characters -/
  | flag {c : Char} {i : Nat} {rest : CStr} {gs : List (Nat × Option CStr)} {sep : Option CStr} :
      c ≠ '-' → shortLookup c ds 0 = some (i, .no) → Body ds rest gs sep → Body ds (c :: rest) ((i, none) :: gs) sep
  /-- a short option with the rest of the argument as its value -/
  | attached {c : Char} {i : Nat} {k : ValKind} {v : CStr} :
      c ≠ '-' → shortLookup c ds 0 = some (i, k) → k ≠ .no → v ≠ [] → Body ds (c :: v) [(i, some v)] none
  /-- a short option with the next argument as its value -/
  | separate {c : Char} {i : Nat} {v : CStr} :
      c ≠ '-' → shortLookup c ds 0 = some (i, .req) → Body ds [c] [(i, some v)] (some v)
  /-- a short option with an optional value that is not given -/
  | bare {c : Char} {i : Nat} : c ≠ '-' → shortLookup c ds 0 = some (i, .opt) → Body ds [c] [(i, none)] none
  /-- a long option without a value -/
  | long {p : CStr} {l : Long} : p ≠ [] → '=' ∉ p → Denotes (longTable ds 0) p l → l.kind ≠ .req →
      Body ds ('-' :: p) [(l.entry, none)] none
  /-- a long option with a value after `=` -/
  | longValue {p v : CStr} {l : Long} : '=' ∉ p → Denotes (longTable ds 0) p l → l.kind ≠ .no →
      Filled ds l.entry v → Body ds ('-' :: (p ++ '=' :: v)) [(l.entry, some v)] none
  /-- a long option with the next argument as its value -/
  | longSeparate {p v : CStr} {l : Long} : p ≠ [] → '=' ∉ p → Denotes (longTable ds 0) p l → l.kind = .req →
      Filled ds l.entry v → Body ds ('-' :: p) [(l.entry, some v)] (some v)

/-- `Line ds posix args gs ops`: the arguments `args` consist of options, which give the entries the values `gs`, and
of the operands `ops`. -/
inductive Line (ds : List Decl) (posix : Bool) : List CStr → List (Nat × Option CStr) → List CStr → Prop
  | done : Line ds posix [] [] []
  /-- after `--` there are only operands -/
  | dashes (ops : List CStr) : Line ds posix (['-', '-'] :: ops) [] ops
  | operand {a : CStr} {rest : List CStr} {gs : List (Nat × Option CStr)} {ops : List CStr} :
      isOperand a = true → posix = false → Line ds posix rest gs ops → Line ds posix (a :: rest) gs (a :: ops)
  /-- under POSIXLY_CORRECT the first operand ends the options -/
  | posix {a : CStr} (rest : List CStr) : isOperand a = true → posix = true → Line ds posix (a :: rest) [] (a :: rest)
  | option {body : CStr} {rest : List CStr} {g gs : List (Nat × Option CStr)} {ops : List CStr} :
      body ≠ [] → Body ds body g none → Line ds posix rest gs ops →
      Line ds posix (('-' :: body) :: rest) (g ++ gs) ops
  | optionValue {body v : CStr} {rest : List CStr} {g gs : List (Nat × Option CStr)} {ops : List CStr} :
      Body ds body g (some v) → Line ds posix rest gs ops →
      Line ds posix (('-' :: body) :: v :: rest) (g ++ gs) ops

/-- The values for entry number `i`. -/
def given (gs : List (Nat × Option CStr)) (i : Nat) : List (Option CStr) :=
  (gs.filter fun g => g.1 = i).map (·.2)

/-- A deterministic regular expression with numbers in range (see `C54_decides`). -/
structure Re.Definite (r : Re) (ic : Bool) : Prop where
  ok : r.Ok
  fits : r.Compiles
  spare : r.Spare
  det : r.Det ic (fun _ => False)

/-- The entry `h` admits the text `a` as its value number `j`. -/
inductive Admits (lc : Libc δ) (h : Hdr (Obj δ)) (j : Nat) (a : CStr) : Prop
  | lit {c : Nat} : h.parent = .lit c → Admits lc h j a
  | int {o : IntObj} {n : Int} : h.parent = .int o → LooseText a n → FitsInt n → Admits lc h j a
  | dbl {o : DblObj δ} : h.parent = .dbl o → (lc.strtod a).2 = [] → Admits lc h j a
  | str {o : StrObj} : h.parent = .str o → Admits lc h j a
  | file {o : FileObj} : h.parent = .file o → Admits lc h j a
  | date {fmt : CStr} {o : DateObj} {t t' : Tm} : DateEntry lc fmt h o → o.tmval[j]? = some t → Matches fmt a t t' →
      Admits lc h j a
  | rex {r : Re} {ic : Bool} {o : StrObj} : RexEntry r.text ic h o → r.Definite ic → r.Accepts ic a → Admits lc h j a

/-- The entry `h` takes the arguments `args`: there are not too many, and it admits each text. -/
structure Takes (lc : Libc δ) (h : Hdr (Obj δ)) (args : List (Option CStr)) : Prop where
  room : args = [] ∨ (args.length : Int) ≤ h.maxcount
  text : ∀ (j : Nat) (a : CStr), args[j]? = some (some a) → Admits lc h j a

/-- No entry without option names could take one operand more: the next operand, if there is one, is not admitted
or is too many. -/
def Greedy (lc : Libc δ) (es : List (Hdr (Obj δ))) (gs : List (Nat × Option CStr)) (segs : List (List CStr)) : Prop :=
  ∀ (i : Nat) (h : Hdr (Obj δ)) (seg : List CStr) (a : CStr), es[i]? = some h → segs[i]? = some seg →
    h.shortopts = none → h.longopts = none → (segs.drop (i + 1)).flatten.head? = some a →
    ¬ Takes lc h (given gs i ++ seg.map some ++ [some a])

/-- The operand that an `arg_int` refuses, if it has room for one more, is not one of the texts for which its scan function
has undefined behaviour. -/
def NoOverflow (es : List (Hdr (Obj δ))) (gs : List (Nat × Option CStr)) (segs : List (List CStr)) : Prop :=
  ∀ (i : Nat) (h : Hdr (Obj δ)) (o : IntObj) (seg : List CStr) (a : CStr), es[i]? = some h → segs[i]? = some seg →
    h.parent = .int o → h.shortopts = none → h.longopts = none → (segs.drop (i + 1)).flatten.head? = some a →
    ((given gs i ++ seg.map some).length : Int) < h.maxcount → ¬ DoubleMinus a

/-- The command line `args` is right for the entries `es`: it is built from options, giving `gs`, and operands, divided
into `segs`; each entry takes what it is given, and is given at least `mincount` values (an `arg_rem` does not
count). -/
structure Right (lc : Libc δ) (posix : Bool) (es : List (Hdr (Obj δ))) (args : List CStr)
    (gs : List (Nat × Option CStr)) (segs : List (List CStr)) : Prop where
  line : Line (es.map declOf) posix args gs segs.flatten
  spread : Spread es segs.flatten segs
  greedy : Greedy lc es gs segs
  takes : ∀ (i : Nat) (h : Hdr (Obj δ)) (seg : List CStr), es[i]? = some h → segs[i]? = some seg →
    Takes lc h (given gs i ++ seg.map some)
  enough : ∀ (i : Nat) (h : Hdr (Obj δ)) (seg : List CStr), es[i]? = some h → segs[i]? = some seg →
    isRem h.parent = false → h.mincount ≤ (given gs i ++ seg.map some).length

/-- The entry `h`, if it is an `arg_rex`, has a deterministic pattern. -/
def RexDecidable (h : Hdr (Obj δ)) : Prop :=
  ∀ o : StrObj, h.parent = .rex o → ∃ (r : Re) (ic : Bool), RexEntry r.text ic h o ∧ r.Definite ic

end Argtable.Spec
