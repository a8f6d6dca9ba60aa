import Verif.Model.Exchanges
import Verif.Spec.Cmdline

/-!
# How many exchanges a call of `arg_parse` makes (C99)
-/

namespace Argtable.Spec

variable {σ : Type}

/-- `arg_parse` returns, with return value, table and getopt state `r`, after `c` exchanges of two elements of its copy of
`argv`. -/
def ReturnsAfter (env : Bool) (argv : List CStr) (t : Table σ) (g : GState) (r : Nat × Table σ × GState) (c : Nat) : Prop :=
  ∃ fuel, argParseX env fuel argv t g = .ok (r, c)

/-- The command line `prog x -o x -o … x -o` with `k` operands and `k` options in turn. -/
def inTurn (prog x : CStr) (o : Char) (k : Nat) : List CStr := prog :: (List.replicate k [x, ['-', o]]).flatten

/-- Moving `m` arguments before `n` operands: as many exchanges as there are arguments in all, unless there is nothing to move. -/
def moving (n m : Nat) : Nat := if n = 0 ∨ m = 0 then 0 else n + m

/-- The exchanges made while the arguments `args` are read, when `n` operands have been met before, and since the last of them `m`
arguments that are not operands: these are moved at the next operand, at `--` (which is moved as well), or at the end. -/
def exchanges (ds : List Decl) : (args : List CStr) → (n m : Nat) → Nat
  | [], n, m => moving n m
  | a :: rest, n, m =>
    if a = ['-', '-'] then moving n (m + 1)
    else if isOperand a then moving n m + exchanges ds rest (n + 1) 0
    else
      match readCluster ds a rest.head? a.tail with
      | some (_, true) =>
        match rest with
        | [] => moving n (m + 1)
        | _ :: rest' => exchanges ds rest' n (m + 2)
      | _ => exchanges ds rest n (m + 1)

end Argtable.Spec
