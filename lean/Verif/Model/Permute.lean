import Verif.Base
/-!
# Model of `gcd` and `permute_args` (arg_getopt_long.c:174-224)
-/

namespace Argtable

/-- `gcd(a, b)`, arg_getopt_long.c:174-187 (the `while` loop as recursion).
`a % 0` is undefined behaviour. -/
def gcdLoop (a b : Nat) : M Nat :=
  if h : b = 0 then .error (.ub "gcd: division by zero")
  else
    if a % b = 0 then .ok b else gcdLoop b (a % b)
termination_by b
decreasing_by exact Nat.mod_lt _ (Nat.pos_of_ne_zero h)

/-- The assignments of arg_getopt_long.c:217-221: exchange `nargv[pos]` and `nargv[cstart]`; an index
outside the vector is undefined behaviour. -/
def swapAt {α : Type} (v : List α) (pos cstart : Nat) : M (List α) :=
  match v[pos]?, v[cstart]? with
  | some x, some y => .ok ((v.set pos y).set cstart x)
  | _, _ => .error (.ub "permute_args: index out of range")

/-- Inner loop of `permute_args`, arg_getopt_long.c:212-222; `k` iterations left. -/
def permInner {α : Type} (nonoptEnd nnonopts nopts cstart : Nat) :
    (k : Nat) → (pos : Nat) → List α → M (List α)
  | 0, _, v => .ok v
  | k + 1, pos, v => do
    let pos' := if pos ≥ nonoptEnd then pos - nnonopts else pos + nopts
    let v' ← swapAt v pos' cstart
    permInner nonoptEnd nnonopts nopts cstart k pos' v'

/-- Outer loop of `permute_args`, arg_getopt_long.c:209-223; `k` iterations left, the current one
being number `i`. -/
def permOuter {α : Type} (nonoptEnd nnonopts nopts cyclelen : Nat) :
    (k : Nat) → (i : Nat) → List α → M (List α)
  | 0, _, v => .ok v
  | k + 1, i, v => do
    let v' ← permInner nonoptEnd nnonopts nopts (nonoptEnd + i) cyclelen (nonoptEnd + i) v
    permOuter nonoptEnd nnonopts nopts cyclelen k (i + 1) v'

/-- `permute_args(panonopt_start, panonopt_end, opt_end, nargv)`, arg_getopt_long.c:194-224.
The `int` indices are naturals. -/
def permuteArgs {α : Type} (nonoptStart nonoptEnd optEnd : Nat) (nargv : List α) : M (List α) := do
  let nnonopts := nonoptEnd - nonoptStart
  let nopts := optEnd - nonoptEnd
  let ncycle ← gcdLoop nnonopts nopts
  let cyclelen := (optEnd - nonoptStart) / ncycle
  permOuter nonoptEnd nnonopts nopts cyclelen ncycle 0 nargv

end Argtable
