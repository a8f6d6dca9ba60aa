import Verif.Model.Parse

/-!
# `arg_parse` with a count of the exchanges made in the copy of `argv`

The functions of `Model/Permute.lean`, `Model/Getopt.lean` and `Model/Parse.lean` from `permute_args` up to `arg_parse`, with one
more result: how many times the assignments of arg_getopt_long.c:217-221, which exchange two elements of `nargv`, are executed.
`C99_same` proves that the other results are the same.
-/

namespace Argtable

variable {α σ : Type}

/-- Inner loop of `permute_args`, arg_getopt_long.c:212-222 (`permInner`), with the number of exchanges. -/
def permInnerX (nonoptEnd nnonopts nopts cstart : Nat) : (k : Nat) → (pos : Nat) → List α → M (List α × Nat)
  | 0, _, v => .ok (v, 0)
  | k + 1, pos, v => do
    let pos' := if pos ≥ nonoptEnd then pos - nnonopts else pos + nopts
    let v' ← swapAt v pos' cstart
    let r ← permInnerX nonoptEnd nnonopts nopts cstart k pos' v'
    .ok (r.1, r.2 + 1)

/-- Outer loop of `permute_args`, arg_getopt_long.c:209-223 (`permOuter`), with the number of exchanges. -/
def permOuterX (nonoptEnd nnonopts nopts cyclelen : Nat) : (k : Nat) → (i : Nat) → List α → M (List α × Nat)
  | 0, _, v => .ok (v, 0)
  | k + 1, i, v => do
    let a ← permInnerX nonoptEnd nnonopts nopts (nonoptEnd + i) cyclelen (nonoptEnd + i) v
    let r ← permOuterX nonoptEnd nnonopts nopts cyclelen k (i + 1) a.1
    .ok (r.1, a.2 + r.2)

/-- `permute_args`, arg_getopt_long.c:194-224 (`permuteArgs`), with the number of exchanges. -/
def permuteArgsX (nonoptStart nonoptEnd optEnd : Nat) (nargv : List α) : M (List α × Nat) := do
  let nnonopts := nonoptEnd - nonoptStart
  let nopts := optEnd - nonoptEnd
  let ncycle ← gcdLoop nnonopts nopts
  let cyclelen := (optEnd - nonoptStart) / ncycle
  permOuterX nonoptEnd nnonopts nopts cyclelen ncycle 0 nargv

/-- End of the argument vector, arg_getopt_long.c:442-457 (`endOfArgs`), with the number of exchanges. -/
def endOfArgsX (s : GState) : M (Start × Nat) := do
  let s := { s with place := [] }
  match s.nonoptEnd, s.nonoptStart with
  | some e, st =>
    match st with
    | some b => do
      let r ← permuteArgsX b e s.optind s.nargv
      .ok (.ret (-1) { s with nargv := r.1, optind := s.optind - (e - b), nonoptStart := none, nonoptEnd := none }, r.2)
    | none => .error (.ub "nonopt_end set without nonopt_start")
  | none, some b => .ok (.ret (-1) { s with optind := b, nonoptStart := none, nonoptEnd := none }, 0)
  | none, none => .ok (.ret (-1) { s with nonoptStart := none, nonoptEnd := none }, 0)

/-- Bookkeeping for a skipped operand, arg_getopt_long.c:481-491 (`skipOperand`), with the number of exchanges. -/
def skipOperandX (s : GState) : M (GState × Nat) :=
  match s.nonoptStart, s.nonoptEnd with
  | none, _ => .ok ({ s with nonoptStart := some s.optind, optind := s.optind + 1 }, 0)
  | some b, some e => do
    let r ← permuteArgsX b e s.optind s.nargv
    .ok ({ s with nargv := r.1, nonoptStart := some (s.optind - (e - b)), nonoptEnd := none, optind := s.optind + 1 }, r.2)
  | some _, none => .ok ({ s with optind := s.optind + 1 }, 0)

/-- `--` found, arg_getopt_long.c:502-514 (`foundDashDash`), with the number of exchanges. -/
def foundDashDashX (s : GState) : M (Start × Nat) := do
  let s := { s with optind := s.optind + 1, place := [] }
  match s.nonoptEnd, s.nonoptStart with
  | some e, some b => do
    let r ← permuteArgsX b e s.optind s.nargv
    .ok (.ret (-1) { s with nargv := r.1, optind := s.optind - (e - b), nonoptStart := none, nonoptEnd := none }, r.2)
  | some _, none => .error (.ub "nonopt_end set without nonopt_start")
  | none, _ => .ok (.ret (-1) { s with nonoptStart := none, nonoptEnd := none }, 0)

/-- `skipOperandX` advances `optind` by one. -/
theorem skipOperandX_optind {s : GState} {r : GState × Nat} (h : skipOperandX s = .ok r) : r.1.optind = s.optind + 1 := by
  unfold skipOperandX at h
  split at h
  · cases h; rfl
  · simp only [bind, Except.bind] at h
    split at h
    · cases h
    · cases h; rfl
  · cases h; rfl

/-- The code from label `start:` up to arg_getopt_long.c:516 (`scanStart`), with the number of exchanges. -/
def scanStartX (nargc : Nat) (permute allargs : Bool) (s0 : GState) : M (Start × Nat) :=
  if s0.optreset || s0.place.isEmpty then
    let s := { s0 with optreset := false }
    if hge : s0.optind ≥ nargc then endOfArgsX s
    else
      match s.nargv[s.optind]? with
      | none => .error (.ub "nargv: read out of range")
      | some arg =>
        if arg.head? ≠ some '-' ∨ arg.tail = [] then
          let s := { s with place := [] }
          if allargs then .ok (.ret INORDER { s with optarg := some arg, optind := s.optind + 1 }, 0)
          else if !permute then .ok (.ret (-1) s, 0)
          else
            match h : skipOperandX s with
            | .error e => .error e
            | .ok a =>
              match scanStartX nargc permute allargs a.1 with
              | .error e => .error e
              | .ok r => .ok (r.1, a.2 + r.2)
        else
          let s := if s.nonoptStart.isSome && s.nonoptEnd.isNone
                   then { s with nonoptEnd := some s.optind } else s
          let s := { s with place := arg.tail }
          if arg.tail = ['-'] then foundDashDashX s
          else .ok (.go s, 0)
  else .ok (.go s0, 0)
termination_by nargc - s0.optind
decreasing_by
  have := skipOperandX_optind h
  show nargc - a.1.optind < nargc - s0.optind
  rw [this]
  show nargc - (s0.optind + 1) < nargc - s0.optind
  omega

/-- `getopt_internal` behind the label `start:`, arg_getopt_long.c:517-613: the part of `getoptInternal` after `scanStart`. -/
def getoptRest (nargc : Nat) (options : CStr) (longs : Option (List LongOpt)) (longOnly : Bool) (st : Start) : M (Int × GState) :=
  match st with
  | .ret code s => .ok (code, s)
  | .go s =>
    match longs with
    | none => shortPart nargc options longs longOnly s
    | some ls =>
      if s.place.head? = some '-' then
        let s := { s with place := s.place.tail }
        if s.place = [] then .ok (BADARG options, s)
        else do
          let (optchar, s) ← parseLongOptions options ls false longOnly (cs "--") s
          if optchar ≠ -1 then .ok (optchar, { s with place := [] })
          else shortPart nargc options longs longOnly s
      else if longOnly then do
        let shortToo := match s.place.head? with
          | some c => c != ':' && (strchr options c).isSome
          | none => false
        let (optchar, s) ← parseLongOptions options ls shortToo longOnly (cs "-") s
        if optchar ≠ -1 then .ok (optchar, { s with place := [] })
        else shortPart nargc options longs longOnly s
      else shortPart nargc options longs longOnly s

/-- `getopt_internal`, arg_getopt_long.c:396-613 (`getoptInternal`), with the number of exchanges. -/
def getoptInternalX (posixEnv : Bool) (nargc : Nat) (options : CStr) (longs : Option (List LongOpt)) (permute0 longOnly : Bool)
    (s0 : GState) : M ((Int × GState) × Nat) := do
  let s := if s0.optind = 0 then { s0 with optind := 1, optreset := true } else s0
  let posix := if s.posixly = none ∨ s.optreset then posixEnv else s.posixly.getD posixEnv
  let s := { s with posixly := some posix }
  let allargs := options.head? = some '-'
  let permute := if allargs then permute0
                 else if posix ∨ options.head? = some '+' then false else permute0
  let options := if options.head? = some '+' ∨ options.head? = some '-' then options.tail
                 else options
  let s := { s with optarg := none }
  let s := if s.optreset then { s with nonoptStart := none, nonoptEnd := none } else s
  let a ← scanStartX nargc permute allargs s
  let r ← getoptRest nargc options longs longOnly a.1
  .ok (r, a.2)

/-- The `while` loop of `arg_parse_tagged`, argtable3.c:257-327 (`taggedLoop`), with the number of exchanges. -/
def taggedLoopX (posixEnv : Bool) (nargc : Nat) (sopts : CStr) (lopts : List LongOpt) :
    (fuel : Nat) → GState → Table σ → M ((GState × Table σ) × Nat)
  | 0, _, _ => .error .fuel
  | fuel + 1, g, t => do
    let a ← getoptInternalX posixEnv nargc sopts (some lopts) true false g
    if a.1.1 = -1 then .ok ((a.1.2, t), a.2)
    else do
      let t ← taggedBody a.1.1 a.1.2 t
      let r ← taggedLoopX posixEnv nargc sopts lopts fuel a.1.2 t
      .ok (r.1, a.2 + r.2)

/-- `arg_parse_tagged`, argtable3.c:235-331 (`parseTagged`), with the number of exchanges. -/
def parseTaggedX (posixEnv : Bool) (fuel : Nat) (nargc : Nat) (g : GState) (t : Table σ) : M ((GState × Table σ) × Nat) := do
  let lopts ← allocLongoptions t.entries
  let sopts ← allocShortoptions t.entries
  taggedLoopX posixEnv nargc sopts lopts fuel { g with optind := 0, opterr := false } t

/-- `arg_parse`, argtable3.c:427-480 (`argParse`), with the number of exchanges. -/
def argParseX (posixEnv : Bool) (fuel : Nat) (argv : List CStr) (t : Table σ) (g : GState) :
    M ((Nat × Table σ × GState) × Nat) := do
  let t ← argReset t
  if argv.length = 0 then
    let e ← parseCheck t.entries 0 t.fin
    .ok ((e.count, { t with fin := e }, g), 0)
  else
    let a ← parseTaggedX posixEnv fuel argv.length { g with nargv := argv } t
    let (optind, t) ← parseUntagged a.1.1.nargv argv.length 0 a.1.1.optind none a.1.2
    let g := { a.1.1 with optind := optind }
    if t.fin.count = 0 then
      let e ← parseCheck t.entries 0 t.fin
      .ok ((e.count, { t with fin := e }, g), a.2)
    else .ok ((t.fin.count, t, g), a.2)

end Argtable
