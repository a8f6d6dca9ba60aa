import Verif.Model.GetoptInt
import Verif.Spec.Getopt
/-!
# The `int` variables of getopt and what they stand for
-/

namespace Argtable.Spec

/-- An index, or -1 for none. -/
def orMinusOne : Option Nat → Int
  | none => -1
  | some n => n

/-- The `int` variables `i` have the values described by `g`. -/
structure SameInts (i : IntState) (g : GState) : Prop where
  optind : i.optind = g.optind
  opterr : i.opterr ≠ 0 ↔ g.opterr = true
  optopt : i.optopt = g.optopt
  optreset : i.optreset ≠ 0 ↔ g.optreset = true
  optarg : i.optarg = g.optarg
  place : i.place = g.place
  nonoptStart : i.nonoptStart = orMinusOne g.nonoptStart
  nonoptEnd : i.nonoptEnd = orMinusOne g.nonoptEnd
  posixly : i.posixly = -1 ↔ g.posixly = none
  posixlySet : ∀ b, g.posixly = some b → (i.posixly ≠ 0 ↔ b = true)
  getoptval : i.getoptval = g.getoptval
  nargv : i.nargv = g.nargv
  stderr : i.stderr = g.stderr

/-- The variables are as getopt leaves them for a vector of `nargc` arguments: `optind` is in the vector or behind it, the skipped
operands are before it, and if there are characters left of a group of options then `optind` is the argument with the group.  A
program that sets `optreset`, or `optind` to 0, need not care. -/
structure InOrder (nargc : Nat) (g : GState) : Prop where
  length : g.nargv.length = nargc
  optind : g.optind ≤ nargc
  place : g.optreset = false → g.optind ≠ 0 → g.place ≠ [] → g.optind < nargc
  start : g.optreset = false → g.optind ≠ 0 → ∀ b, g.nonoptStart = some b → b ≤ g.optind
  fin : g.optreset = false → g.optind ≠ 0 → ∀ e, g.nonoptEnd = some e → e ≤ g.optind ∧ ∃ b, g.nonoptStart = some b ∧ b ≤ e

/-- The call of a getopt function (`Fn.call`) with `int` variables. -/
def Getopt.Fn.callInt (fn : Getopt.Fn) (posixEnv : Bool) (nargc : Int) (optstring : CStr) (idx : Bool) (i : IntState) :
    M (Int × IntState) :=
  match fn with
  | .getopt => Argtable.getoptInt posixEnv nargc optstring i
  | .getoptLong longs => Argtable.getoptLongInt posixEnv nargc optstring longs idx i
  | .getoptLongOnly longs => Argtable.getoptLongOnlyInt posixEnv nargc optstring longs idx i

/-- What the program sees after a call (`Getopt.see`). -/
def seeInt (code : Int) (i : IntState) : Getopt.Obs := ⟨code, i.optarg, i.optopt, i.getoptval.toNat, i.stderr⟩

/-- The program's loop (`Getopt.loop`) with `int` variables. -/
def loopInt (call : IntState → M (Int × IntState)) : Nat → IntState → M (List Getopt.Obs × IntState)
  | 0, _ => .error .fuel
  | n + 1, i => do
    let (c, i') ← call i
    if c = -1 then .ok ([], i')
    else do
      let (l, f) ← loopInt call n i'
      .ok (seeInt c i' :: l, f)

end Argtable.Spec
