import Verif.Model.Table
/-!
# Specification of command-line reading

A direct, left-to-right description of what a command line means for a given set of option
declarations.  Nothing here refers to getopt: there are no indices, no scanning pointers and no
argument permutation.  Only the data types of tables (`Hdr`, `ErrRec`, ...) are shared with the model.
-/

namespace Argtable.Spec

/-- What a table entry declares about its options. -/
structure Decl where
  hasValue : Bool
  hasOptValue : Bool
  short : Option CStr
  long : Option CStr
deriving DecidableEq, Repr

/-- The declaration made by a table entry. -/
def declOf {σ : Type} (h : Hdr σ) : Decl := ⟨h.hasValue, h.hasOptValue, h.shortopts, h.longopts⟩

/-- Whether an option takes no value, requires one, or accepts one optionally. -/
inductive ValKind where
  | no
  | req
  | opt
deriving DecidableEq, Repr

/-- Value kind of the short options of an entry. -/
def Decl.shortKind (d : Decl) : ValKind :=
  match d.hasValue, d.hasOptValue with
  | false, false => .no
  | true, true => .opt
  | _, _ => .req

/-- Value kind of the long options of an entry. -/
def Decl.longKind (d : Decl) : ValKind :=
  if d.hasOptValue then .opt else if d.hasValue then .req else .no

/-- The first entry, counting from `i`, that declares the short option `c`, with its value kind. -/
def shortLookup (c : Char) : List Decl → (i : Nat) → Option (Nat × ValKind)
  | [], _ => none
  | d :: ds, i => if c ∈ d.short.getD [] then some (i, d.shortKind) else shortLookup c ds (i + 1)

/-- The names in a comma separated list.  A trailing comma does not add an empty name. -/
def namesOf : CStr → List CStr
  | [] => []
  | ',' :: s => [] :: namesOf s
  | c :: s =>
    match namesOf s with
    | [] => [[c]]
    | n :: ns => (c :: n) :: ns

/-- A long option: its name, the entry it belongs to, its value kind. -/
structure Long where
  name : CStr
  entry : Nat
  kind : ValKind
deriving DecidableEq, Repr

/-- All long options of a table in table order; entries are numbered from `i`. -/
def longTable : List Decl → (i : Nat) → List Long
  | [], _ => []
  | d :: ds, i => ((d.long.map namesOf).getD []).map (⟨·, i, d.longKind⟩) ++ longTable ds (i + 1)

/-- The long option denoted by the (possibly abbreviated) name `p`: an exact match if there is one,
otherwise the first name with prefix `p` provided all names with that prefix belong to one entry. -/
def resolve (ls : List Long) (p : CStr) : Option Long :=
  match ls.find? (fun l => l.name == p) with
  | some l => some l
  | none =>
    match ls.filter (fun l => p.isPrefixOf l.name) with
    | [] => none
    | l :: rest => if rest.all (fun m => m.entry == l.entry) then some l else none

/-- What reading (a part of) the command line asks for. -/
inductive Ev where
  /-- hand `arg` (or "no value") to entry `i` -/
  | deliver (i : Nat) (arg : Option CStr)
  /-- record an error that belongs to no entry -/
  | fail (code : Int) (argval : Option CStr)
deriving DecidableEq, Repr

/-- An empty value for a long option of an entry declared with `ARG_HASVALUE` is reported as missing
(and still delivered). -/
def emptyValueError (ds : List Decl) (i : Nat) (v : CStr) (argval : CStr) : List Ev :=
  if v = [] ∧ (ds[i]?.map (·.hasValue)) = some true then [.fail ARG_EMISSARG (some argval)] else []

/-- Reading `--body`; `whole` is the argument it occurs in, `next` the following argument.  The Boolean
tells whether `next` is used up. -/
def readLong (ds : List Decl) (whole : CStr) (next : Option CStr) (body : CStr) : List Ev × Bool :=
  let name := body.takeWhile (· ≠ '=')
  let value : Option CStr := if '=' ∈ body then some (body.dropWhile (· ≠ '=')).tail else none
  match resolve (longTable ds 0) name with
  | none => ([.fail ARG_ELONGOPT (some whole)], false)
  | some ⟨_, i, kind⟩ =>
    match value, kind with
    | some _, .no => ([.fail ARG_ELONGOPT (some whole)], false)
    | some v, _ => (emptyValueError ds i v whole ++ [.deliver i (some v)], false)
    | none, .req =>
      match next with
      | none => ([.fail ARG_EMISSARG (some whole)], false)
      | some v => (emptyValueError ds i v v ++ [.deliver i (some v)], true)
    | none, _ => ([.deliver i none], false)

/-- Reading the characters of a cluster of short options (the part of `whole` after `-`).
`none`: the cluster ends in a lone `-`, which argtable3 never gets past. -/
def readCluster (ds : List Decl) (whole : CStr) (next : Option CStr) :
    CStr → Option (List Ev × Bool)
  | [] => some ([], false)
  | c :: tl =>
    if c = '-' then
      if tl = [] then none else some (readLong ds whole next tl)
    else match shortLookup c ds 0 with
      | none => (readCluster ds whole next tl).map fun (evs, u) =>
          (.fail (charInt c) none :: evs, u)
      | some (i, .no) => (readCluster ds whole next tl).map fun (evs, u) =>
          (.deliver i none :: evs, u)
      | some (i, .req) =>
        if tl ≠ [] then some ([.deliver i (some tl)], false)
        else match next with
          | none => some ([.fail ARG_EMISSARG (some whole)], false)
          | some v => some ([.deliver i (some v)], true)
      | some (i, .opt) => some ([.deliver i (if tl = [] then none else some tl)], false)

/-- An argument is an operand if it does not start with `-` or is just `-`. -/
def isOperand (a : CStr) : Bool :=
  match a with
  | '-' :: _ :: _ => false
  | _ => true

/-- Reading a command line (without program name): the events in order and the operands in order.
`posix` is the effect of POSIXLY_CORRECT: options end at the first operand.
`none`: some argument is a cluster with a lone `-` at its end. -/
def tokenize (ds : List Decl) (posix : Bool) : List CStr → Option (List Ev × List CStr)
  | [] => some ([], [])
  | a :: rest =>
    if a = ['-', '-'] then some ([], rest)
    else if isOperand a then
      if posix then some ([], a :: rest)
      else (tokenize ds posix rest).map fun (evs, ops) => (evs, a :: ops)
    else
      match readCluster ds a rest.head? a.tail with
      | none => none
      | some (evs, false) =>
        (tokenize ds posix rest).map fun (evs', ops) => (evs ++ evs', ops)
      | some (evs, true) =>
        match rest with
        | [] => some (evs, [])
        | _ :: rest' => (tokenize ds posix rest').map fun (evs', ops) => (evs ++ evs', ops)

variable {σ : Type}

/-- One event applied to the entries, with the errors raised so far. -/
def deliver (s : List (Hdr σ) × List ErrRec) : Ev → M (List (Hdr σ) × List ErrRec)
  | .fail code argval => .ok (s.1, s.2 ++ [⟨code, .endt, argval⟩])
  | .deliver i arg =>
    match s.1[i]? with
    | none => .error (.ub "table index out of range")
    | some h =>
      match h.scanfn with
      | none => .ok s
      | some f => do
        let (p, err) ← f h.parent arg
        .ok (s.1.set i { h with parent := p },
             if err ≠ 0 then s.2 ++ [⟨err, .entry i, arg⟩] else s.2)

/-- All events in order. -/
def deliverAll : List Ev → List (Hdr σ) × List ErrRec → M (List (Hdr σ) × List ErrRec)
  | [], s => .ok s
  | ev :: evs, s => do
    let s ← deliver s ev
    deliverAll evs s

/-- Feeding operands to one entry until it rejects one: the new entry state, the operands left, and
the error code of the rejection (0 if all operands were accepted). -/
def feed (f : σ → Option CStr → M (σ × Int)) : σ → List CStr → M (σ × List CStr × Int)
  | p, [] => .ok (p, [], 0)
  | p, a :: ops => do
    let (p', err) ← f p (some a)
    if err = 0 then feed f p' ops else .ok (p', a :: ops, err)

/-- Operands left over when all entries have been tried: the first one is reported with the last
rejection (if any), the others as unexpected. -/
def leftover (last : Option (Int × Nat)) (ops : List CStr) : List ErrRec :=
  match ops, last with
  | [], _ => []
  | a :: rest, some (err, i) =>
    ⟨err, .entry i, some a⟩ :: rest.map fun b => ⟨ARG_ENOMATCH, .endt, some b⟩
  | a :: rest, none => (a :: rest).map fun b => ⟨ARG_ENOMATCH, .endt, some b⟩

/-- Handing the operands to the untagged entries, from entry number `i` on: each entry in turn takes
as many as it accepts. -/
def operands : List (Hdr σ) → (i : Nat) → (last : Option (Int × Nat)) → List CStr →
    M (List (Hdr σ) × List ErrRec)
  | [], _, last, ops => .ok ([], leftover last ops)
  | h :: t, i, last, ops =>
    if ops = [] then .ok (h :: t, [])
    else if h.longopts.isSome ∨ h.shortopts.isSome then do
      let (t', errs) ← operands t (i + 1) last ops
      .ok (h :: t', errs)
    else match h.scanfn with
      | none => do
        let (t', errs) ← operands t (i + 1) last ops
        .ok (h :: t', errs)
      | some f => do
        let (p, ops', err) ← feed f h.parent ops
        let (t', errs) ← operands t (i + 1) (some (err, i)) ops'
        .ok ({ h with parent := p } :: t', errs)

/-- The errors of the final checks, entries numbered from `i`. -/
def checks : List (Hdr σ) → (i : Nat) → List ErrRec
  | [], _ => []
  | h :: t, i =>
    match h.checkfn with
    | none => checks t (i + 1)
    | some f => if f h.parent ≠ 0 then ⟨f h.parent, .entry i, none⟩ :: checks t (i + 1)
                else checks t (i + 1)

/-- The effect of reset functions. -/
def resetAll : List (Hdr σ) → M (List (Hdr σ))
  | [] => .ok []
  | h :: t => do
    let p ← match h.resetfn with
      | none => .ok h.parent
      | some f => f h.parent
    let t ← resetAll t
    .ok ({ h with parent := p } :: t)

/-- The effect of the deliveries and operands alone, without the final checks: new entries and the
errors raised. -/
def scanned (es : List (Hdr σ)) (evs : List Ev) (ops : List CStr) :
    M (List (Hdr σ) × List ErrRec) := do
  let es ← resetAll es
  let (es, errs) ← deliverAll evs (es, [])
  let (es, errs') ← operands es 0 none ops
  .ok (es, errs ++ errs')

/-- The meaning of a command line that reads as `(evs, ops)`: new entries and all errors raised. -/
def meaning (es : List (Hdr σ)) (evs : List Ev) (ops : List CStr) :
    M (List (Hdr σ) × List ErrRec) := do
  let es ← resetAll es
  let (es, errs) ← deliverAll evs (es, [])
  let (es, errs') ← operands es 0 none ops
  let errs := errs ++ errs'
  .ok (es, if errs = [] then checks es 0 else errs)

/-- What an `arg_end` with room for `m` errors shows of a list of errors: all of them if they fit,
otherwise the first `m - 1` and a "too many errors" record. -/
def recorded (m : Nat) (errs : List ErrRec) : List ErrRec :=
  if errs.length ≤ m then errs else errs.take (m - 1) ++ [⟨ARG_ELIMIT, .endt, none⟩]

end Argtable.Spec
