import Verif.Model.Parse
/-!
# Model of `arg_parse` in a build with `ARG_LONG_ONLY`

The CMake option `ARGTABLE3_LONG_ONLY` defines the macro `ARG_LONG_ONLY`.  It has one effect: the loop of
`arg_parse_tagged` calls `getopt_long_only` instead of `getopt_long` (argtable3.c:253-257).
-/

namespace Argtable

variable {σ : Type}

/-- The `while` loop of `arg_parse_tagged`, argtable3.c:253-254 and 258-327; at most `fuel` calls of
`getopt_long_only`. -/
def taggedLoopOnly (posixEnv : Bool) (nargc : Nat) (sopts : CStr) (lopts : List LongOpt) :
    (fuel : Nat) → GState → Table σ → M (GState × Table σ)
  | 0, _, _ => .error .fuel
  | fuel + 1, g, t => do
    let (copt, g) ← getoptLongOnly posixEnv nargc sopts lopts g
    if copt = -1 then .ok (g, t)
    else do
      let t ← taggedBody copt g t
      taggedLoopOnly posixEnv nargc sopts lopts fuel g t

/-- `arg_parse_tagged`, argtable3.c:235-331. -/
def parseTaggedOnly (posixEnv : Bool) (fuel : Nat) (nargc : Nat) (g : GState) (t : Table σ) :
    M (GState × Table σ) := do
  let lopts ← allocLongoptions t.entries
  let sopts ← allocShortoptions t.entries
  taggedLoopOnly posixEnv nargc sopts lopts fuel { g with optind := 0, opterr := false } t

/-- `arg_parse`, argtable3.c:427-480. -/
def argParseOnly (posixEnv : Bool) (fuel : Nat) (argv : List CStr) (t : Table σ) (g : GState) :
    M (Nat × Table σ × GState) := do
  let t ← argReset t
  if argv.length = 0 then
    let e ← parseCheck t.entries 0 t.fin
    .ok (e.count, { t with fin := e }, g)
  else
    let (g, t) ← parseTaggedOnly posixEnv fuel argv.length { g with nargv := argv } t
    let (optind, t) ← parseUntagged g.nargv argv.length 0 g.optind none t
    let g := { g with optind := optind }
    if t.fin.count = 0 then
      let e ← parseCheck t.entries 0 t.fin
      .ok (e.count, { t with fin := e }, g)
    else .ok (t.fin.count, t, g)

end Argtable
