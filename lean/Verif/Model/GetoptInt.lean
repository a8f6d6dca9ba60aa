import Verif.Model.Getopt
/-!
# The bundled getopt, with `int` variables

`Model/Getopt.lean` has natural numbers, `Option` and Booleans where the code has `int` variables.  Here all variables are integers
as in C: -1 is -1, a flag is true if it is not 0, an operation whose result does not fit 32 bits is undefined, and so is an index
below 0 or beyond the array.  The variable `dash_prefix` and the argument `idx`, which that model leaves out, are here too.
-/

namespace Argtable

/-- The result of an `int` operation.  (the arithmetic of arg_getopt_long.c:175-225 and 436-660.) -/
def int32 (x : Int) : M Int :=
  if -2147483648 ≤ x ∧ x ≤ 2147483647 then .ok x else .error (.ub "signed overflow")

/-- `a % b`.  (arg_getopt_long.c:179-184.) -/
def remInt (a b : Int) : M Int :=
  if b = 0 then .error (.ub "division by zero")
  else if a = -2147483648 ∧ b = -1 then .error (.ub "signed overflow")
  else .ok (a.tmod b)

/-- `a / b`.  (arg_getopt_long.c:207.) -/
def divInt (a b : Int) : M Int :=
  if b = 0 then .error (.ub "division by zero") else int32 (a.tdiv b)

/-- `v[i]`.  (the accesses of arg_getopt_long.c:195-225.) -/
def getInt {α : Type} (v : List α) (i : Int) : M α :=
  if 0 ≤ i then
    match v[i.toNat]? with
    | some x => .ok x
    | none => .error (.ub "index out of range")
  else .error (.ub "index out of range")

/-- `v[i] = x`.  (the stores of arg_getopt_long.c:195-225.) -/
def setInt {α : Type} (v : List α) (i : Int) (x : α) : M (List α) :=
  if 0 ≤ i ∧ i < v.length then .ok (v.set i.toNat x) else .error (.ub "index out of range")

/-- The loop of `gcd`, arg_getopt_long.c:180-184.  `fuel` bounds the number of rounds. -/
def gcdRounds : (fuel : Nat) → (a b c : Int) → M Int
  | 0, _, _, _ => .error .fuel
  | fuel + 1, _, b, c =>
    if c = 0 then .ok b
    else do
      let r ← remInt b c
      gcdRounds fuel b c r

/-- `gcd(a, b)`, arg_getopt_long.c:174-187.  The remainder gets smaller with each round. -/
def gcdInt (a b : Int) : M Int := do
  let c ← remInt a b
  gcdRounds (b.natAbs + 1) a b c

/-- Inner loop of `permute_args`, arg_getopt_long.c:212-222: `for (; j < cyclelen; j++)`. -/
def permInnerInt {α : Type} (nonoptEnd nnonopts nopts cstart cyclelen : Int) (j pos : Int) (v : List α) : M (List α) :=
  if j < cyclelen then do
    let pos ← int32 (if pos ≥ nonoptEnd then pos - nnonopts else pos + nopts)
    let swap ← getInt v pos
    let x ← getInt v cstart
    let v ← setInt v pos x
    let v ← setInt v cstart swap
    permInnerInt nonoptEnd nnonopts nopts cstart cyclelen (j + 1) pos v
  else .ok v
termination_by (cyclelen - j).toNat

/-- Outer loop of `permute_args`, arg_getopt_long.c:209-223: `for (; i < ncycle; i++)`. -/
def permOuterInt {α : Type} (nonoptEnd nnonopts nopts cyclelen ncycle : Int) (i : Int) (v : List α) : M (List α) :=
  if i < ncycle then do
    let cstart ← int32 (nonoptEnd + i)
    let v ← permInnerInt nonoptEnd nnonopts nopts cstart cyclelen 0 cstart v
    permOuterInt nonoptEnd nnonopts nopts cyclelen ncycle (i + 1) v
  else .ok v
termination_by (ncycle - i).toNat

/-- `permute_args(panonopt_start, panonopt_end, opt_end, nargv)`, arg_getopt_long.c:194-224. -/
def permuteArgsInt {α : Type} (nonoptStart nonoptEnd optEnd : Int) (nargv : List α) : M (List α) := do
  let nnonopts ← int32 (nonoptEnd - nonoptStart)
  let nopts ← int32 (optEnd - nonoptEnd)
  let ncycle ← gcdInt nnonopts nopts
  let d ← int32 (optEnd - nonoptStart)
  let cyclelen ← divInt d ncycle
  permOuterInt nonoptEnd nnonopts nopts cyclelen ncycle 0 nargv

/-- The variables of arg_getopt_long.c:69-73, 102-112 and 402, the variable that `option.flag` points to (see `LongOpt`), the one
that `idx` points to, the argument vector and the messages. -/
structure IntState where
  optind : Int
  opterr : Int
  optopt : Int
  optreset : Int
  optarg : Option CStr
  place : CStr
  nonoptStart : Int
  nonoptEnd : Int
  dashPrefix : Int
  posixly : Int
  getoptval : Int
  idx : Int
  nargv : List CStr
  stderr : List CStr
deriving DecidableEq, Repr

/-- `nargv[i]`; the vector is followed by a NULL.  (arg_getopt_long.c:459-660.) -/
def argvInt (nargv : List CStr) (i : Int) : M (Option CStr) :=
  if i = nargv.length then .ok none
  else do
    let a ← getInt nargv i
    .ok (some a)

/-- `if (PRINT_ERROR) warnx(...)`, arg_getopt_long.c:75. -/
def warnInt (options : CStr) (msg : CStr) (s : IntState) : IntState :=
  if s.opterr ≠ 0 ∧ options.head? ≠ some ':' then { s with stderr := s.stderr ++ [msg] } else s

/-- `current_dash`, arg_getopt_long.c:243-258. -/
def dashText (dashPrefix : Int) : CStr :=
  if dashPrefix = 0 then cs "-" else if dashPrefix = 1 then cs "--" else if dashPrefix = 2 then cs "-W " else []

/-- `long_options[i]`: the array ends with an element whose `name` is NULL, here `none`.
(arg_getopt_long.c:232-395.) -/
def longAt (longs : List LongOpt) (i : Int) : M (Option LongOpt) :=
  if i = longs.length then .ok none
  else do
    let o ← getInt longs i
    .ok (some o)

/-- The loop over `long_options`, arg_getopt_long.c:272-299: `match`, `exact_match`, `second_partial_match`.  `fuel` bounds the
number of rounds; one for each element is enough. -/
def matchLoopInt (cur : CStr) (len : Nat) (shortToo : Int) (flags : Nat) (longs : List LongOpt) :
    (fuel : Nat) → (i mtch second : Int) → M (Int × Int × Int)
  | 0, _, _, _ => .error .fuel
  | fuel + 1, i, mtch, second => do
    match ← longAt longs i with
    | none => .ok (mtch, 0, second)
    | some o =>
      if !strncmpEq cur o.name len then do
        let i ← int32 (i + 1)
        matchLoopInt cur len shortToo flags longs fuel i mtch second
      else if o.name.length = len then .ok (i, 1, second)
      else if shortToo ≠ 0 ∧ len = 1 then do
        let i ← int32 (i + 1)
        matchLoopInt cur len shortToo flags longs fuel i mtch second
      else if mtch = -1 then do
        let j ← int32 (i + 1)
        matchLoopInt cur len shortToo flags longs fuel j i second
      else do
        let m ← getInt longs mtch
        let j ← int32 (i + 1)
        matchLoopInt cur len shortToo flags longs fuel j mtch
          (if flags &&& 4 ≠ 0 ∨ o.hasArg ≠ m.hasArg ∨ o.flag ≠ m.flag ∨ o.val ≠ m.val then 1 else second)

/-- Fetching the option's argument, arg_getopt_long.c:335-346. -/
def fetchLongArgInt (o : LongOpt) (he : Option CStr) (s : IntState) : M IntState :=
  if o.hasArg = 1 ∨ o.hasArg = 2 then
    match he with
    | some v => .ok { s with optarg := some v }
    | none =>
      if o.hasArg = 1 then do
        let v ← argvInt s.nargv s.optind
        let n ← int32 (s.optind + 1)
        .ok { s with optarg := v, optind := n }
      else .ok s
  else .ok s

/-- `parse_long_options`, arg_getopt_long.c:231-390; `idx` says whether the pointer of this name is not NULL. -/
def parseLongOptionsInt (options : CStr) (longs : List LongOpt) (idx : Bool) (shortToo : Int) (flags : Nat) (s0 : IntState) :
    M (Int × IntState) := do
  let cur := s0.place
  let dash := dashText s0.dashPrefix
  let n ← int32 (s0.optind + 1)
  let s := { s0 with optind := n }
  let he := hasEqual cur
  let (mtch, exact, second) ← matchLoopInt cur (curLen cur) shortToo flags longs (longs.length + 1) 0 (-1) 0
  if exact = 0 ∧ second ≠ 0 then
    .ok (BADCH, { warnInt options (ambigText dash (curLen cur) cur) s with optopt := 0 })
  else if mtch ≠ -1 then do
    let o ← getInt longs mtch
    if o.hasArg = 0 ∧ he.isSome then
      .ok (BADCH, { warnInt options (noargText dash (curLen cur) cur) s with optopt := if o.flag then 0 else o.val })
    else do
      let s ← fetchLongArgInt o he s
      if o.hasArg = 1 ∧ s.optarg = none then do
        let s := { warnInt options (recargstring dash cur) s with optopt := if o.flag then 0 else o.val }
        let n ← int32 (s.optind - 1)
        .ok (BADARG options, { s with optind := n })
      else
        let s := if idx then { s with idx := mtch } else s
        if o.flag then .ok (0, { s with getoptval := o.val }) else .ok (o.val, s)
  else if shortToo ≠ 0 then do
    let n ← int32 (s.optind - 1)
    .ok (-1, { s with optind := n })
  else .ok (BADCH, { warnInt options (illoptstring dash cur) s with optopt := 0 })

/-- See `Start`.  (arg_getopt_long.c:436-545.) -/
inductive StartInt where
  | ret (code : Int) (s : IntState)
  | go (s : IntState)
deriving DecidableEq, Repr

/-- `optind -= nonopt_end - nonopt_start`, arg_getopt_long.c:448 and 511. -/
def moveBack (s : IntState) : M Int := do
  let d ← int32 (s.nonoptEnd - s.nonoptStart)
  int32 (s.optind - d)

/-- End of the argument vector, arg_getopt_long.c:442-457. -/
def endOfArgsInt (s : IntState) : M StartInt := do
  let s := { s with place := [] }
  if s.nonoptEnd ≠ -1 then do
    let v ← permuteArgsInt s.nonoptStart s.nonoptEnd s.optind s.nargv
    let n ← moveBack s
    .ok (.ret (-1) { s with nargv := v, optind := n, nonoptStart := -1, nonoptEnd := -1 })
  else if s.nonoptStart ≠ -1 then .ok (.ret (-1) { s with optind := s.nonoptStart, nonoptStart := -1, nonoptEnd := -1 })
  else .ok (.ret (-1) { s with nonoptStart := -1, nonoptEnd := -1 })

/-- Bookkeeping for a skipped operand, arg_getopt_long.c:481-491, and `optind++`. -/
def skipOperandInt (s : IntState) : M IntState :=
  if s.nonoptStart = -1 then do
    let n ← int32 (s.optind + 1)
    .ok { s with nonoptStart := s.optind, optind := n }
  else if s.nonoptEnd ≠ -1 then do
    let v ← permuteArgsInt s.nonoptStart s.nonoptEnd s.optind s.nargv
    let b ← moveBack s
    let n ← int32 (s.optind + 1)
    .ok { s with nargv := v, nonoptStart := b, nonoptEnd := -1, optind := n }
  else do
    let n ← int32 (s.optind + 1)
    .ok { s with optind := n }

/-- `--` found, arg_getopt_long.c:502-514. -/
def foundDashDashInt (s : IntState) : M StartInt := do
  let n ← int32 (s.optind + 1)
  let s := { s with optind := n, place := [] }
  if s.nonoptEnd ≠ -1 then do
    let v ← permuteArgsInt s.nonoptStart s.nonoptEnd s.optind s.nargv
    let n ← moveBack s
    .ok (.ret (-1) { s with nargv := v, optind := n, nonoptStart := -1, nonoptEnd := -1 })
  else .ok (.ret (-1) { s with nonoptStart := -1, nonoptEnd := -1 })

/-- The code from label `start:` up to arg_getopt_long.c:516, including the `goto start`.  `fuel` bounds the number of jumps; one
for each argument is enough, since each jump increments `optind`. -/
def scanStartInt (nargc : Int) (flags : Nat) : (fuel : Nat) → IntState → M StartInt
  | 0, _ => .error .fuel
  | fuel + 1, s0 =>
    if s0.optreset ≠ 0 ∨ s0.place = [] then
      let s := { s0 with optreset := 0 }
      if s.optind ≥ nargc then endOfArgsInt s
      else do
        let arg ← getInt s.nargv s.optind
        if arg.head? ≠ some '-' ∨ arg.tail = [] then
          let s := { s with place := [] }
          if flags &&& 2 ≠ 0 then do
            let n ← int32 (s.optind + 1)
            .ok (.ret INORDER { s with optarg := some arg, optind := n })
          else if flags &&& 1 = 0 then .ok (.ret (-1) s)
          else do
            let s ← skipOperandInt s
            scanStartInt nargc flags fuel s
        else
          let s := if s.nonoptStart ≠ -1 ∧ s.nonoptEnd = -1 then { s with nonoptEnd := s.optind } else s
          let s := { s with place := arg.tail }
          if arg.tail = ['-'] then foundDashDashInt s
          else .ok (.go s)
    else .ok (.go s0)

/-- The part of `getopt_internal` that handles a short option letter, arg_getopt_long.c:548-612. -/
def shortPartInt (nargc : Int) (options : CStr) (longs : Option (List LongOpt)) (idx : Bool) (flags : Nat) (s : IntState) :
    M (Int × IntState) :=
  match s.place with
  | [] => .error (.ub "short option: empty place")
  | c :: place =>
    let s := { s with place := place }
    let optchar := charInt c
    match (if c = ':' ∨ (c = '-' ∧ place ≠ []) then none else strchr options c) with
    | none =>
      if c = '-' ∧ place = [] then .ok (-1, s)
      else do
        let n ← int32 (if place = [] then s.optind + 1 else s.optind)
        let s := { s with optind := n }
        .ok (BADCH, { warnInt options (if s.posixly ≠ 0 then illoptchar c else gnuoptchar c) s with optopt := optchar })
    | some oli =>
      if longs.isSome ∧ c = 'W' ∧ oli.tail.head? = some ';' then
        if place ≠ [] then do
          let (r, s) ← parseLongOptionsInt options (longs.getD []) idx 0 flags { s with dashPrefix := 2 }
          .ok (r, { s with place := [] })
        else do
          let n ← int32 (s.optind + 1)
          let s := { s with optind := n }
          if s.optind ≥ nargc then
            .ok (BADARG options, { warnInt options (recargchar c) { s with place := [] } with optopt := optchar })
          else do
            let v ← argvInt s.nargv s.optind
            match v with
            | none => .error (.ub "NULL argument")
            | some v => do
              let (r, s) ← parseLongOptionsInt options (longs.getD []) idx 0 flags { s with place := v, dashPrefix := 2 }
              .ok (r, { s with place := [] })
      else if oli.tail.head? ≠ some ':' then do
        let n ← int32 (if place = [] then s.optind + 1 else s.optind)
        .ok (optchar, { s with optind := n })
      else
        let s := { s with optarg := none }
        if place ≠ [] then do
          let n ← int32 (s.optind + 1)
          .ok (optchar, { s with optarg := some place, place := [], optind := n })
        else if oli.tail.tail.head? ≠ some ':' then do
          let n ← int32 (s.optind + 1)
          let s := { s with optind := n }
          if s.optind ≥ nargc then
            .ok (BADARG options, { warnInt options (recargchar c) { s with place := [] } with optopt := optchar })
          else do
            let v ← argvInt s.nargv s.optind
            let n ← int32 (s.optind + 1)
            .ok (optchar, { s with optarg := v, place := [], optind := n })
        else do
          let n ← int32 (s.optind + 1)
          .ok (optchar, { s with place := [], optind := n })

/-- `getopt_internal`, arg_getopt_long.c:396-613; `flags` has the bits `FLAG_PERMUTE` (1), `FLAG_ALLARGS` (2) and `FLAG_LONGONLY` (4);
`flags &= ~FLAG_PERMUTE` keeps the other two.  The test `place != nargv[optind]` (line 524) is omitted as in `getoptInternal`. -/
def getoptInternalInt (posixEnv : Bool) (nargc : Int) (options : CStr) (longs : Option (List LongOpt)) (idx : Bool) (flags : Nat)
    (s0 : IntState) : M (Int × IntState) := do
  let s := if s0.optind = 0 then { s0 with optind := 1, optreset := 1 } else s0
  let s := if s.posixly = -1 ∨ s.optreset ≠ 0 then { s with posixly := if posixEnv then 1 else 0 } else s
  let flags := if options.head? = some '-' then flags ||| 2
               else if s.posixly ≠ 0 ∨ options.head? = some '+' then flags &&& 6 else flags
  let options := if options.head? = some '+' ∨ options.head? = some '-' then options.tail else options
  let s := { s with optarg := none }
  let s := if s.optreset ≠ 0 then { s with nonoptStart := -1, nonoptEnd := -1 } else s
  match ← scanStartInt nargc flags (nargc.toNat + 1) s with
  | .ret code s => .ok (code, s)
  | .go s =>
    match longs with
    | none => shortPartInt nargc options longs idx flags s
    | some ls =>
      if s.place.head? = some '-' ∨ flags &&& 4 ≠ 0 then
        let s := { s with dashPrefix := 0 }
        if s.place.head? = some '-' then
          let s := { s with place := s.place.tail }
          if s.place = [] then .ok (BADARG options, s)
          else do
            let (optchar, s) ← parseLongOptionsInt options ls idx 0 flags { s with dashPrefix := 1 }
            if optchar ≠ -1 then .ok (optchar, { s with place := [] })
            else shortPartInt nargc options longs idx flags s
        else do
          let shortToo := match s.place.head? with
            | some c => if c ≠ ':' ∧ (strchr options c).isSome then 1 else 0
            | none => 0
          let (optchar, s) ← parseLongOptionsInt options ls idx shortToo flags s
          if optchar ≠ -1 then .ok (optchar, { s with place := [] })
          else shortPartInt nargc options longs idx flags s
      else shortPartInt nargc options longs idx flags s

/-- `getopt_long`, arg_getopt_long.c:640-647: `FLAG_PERMUTE`. -/
def getoptLongInt (posixEnv : Bool) (nargc : Int) (options : CStr) (longs : List LongOpt) (idx : Bool) (s : IntState) :
    M (Int × IntState) :=
  getoptInternalInt posixEnv nargc options (some longs) idx 1 s

/-- `getopt_long_only`, arg_getopt_long.c:653-660: `FLAG_PERMUTE|FLAG_LONGONLY`. -/
def getoptLongOnlyInt (posixEnv : Bool) (nargc : Int) (options : CStr) (longs : List LongOpt) (idx : Bool) (s : IntState) :
    M (Int × IntState) :=
  getoptInternalInt posixEnv nargc options (some longs) idx 5 s

/-- `getopt`, arg_getopt_long.c:621-634. -/
def getoptInt (posixEnv : Bool) (nargc : Int) (options : CStr) (s : IntState) : M (Int × IntState) :=
  getoptInternalInt posixEnv nargc options none false 0 s

end Argtable
