import Verif.Model.Program
import Verif.Spec.Life
/-!
# What a program that uses all parts of the library may do, and what it can rely on

`Ledger` is what the client can write down about its own calls, without looking at the memory: the texts that its `arg_dstr`
objects should have, the calls of arg_dstr.c, the calls that set name and version, and the calls that register commands.
-/

namespace Argtable.Spec

variable {δ P C : Type}

/-- What a program has asked for so far: the texts it wrote, its calls for dynamic strings, for the name and version, and for commands. -/
structure Ledger (P C : Type) where
  texts : List (Option CStr)
  strings : List SCmd
  mods : List ModEvent
  cmds : List (CmdEvent P C)

/-- Nothing has been done. -/
def Ledger.empty : Ledger P C := ⟨[], [], [], []⟩

/-- The text that a call should write (`Model/Print.lean`, `Model/Help.lean`; C43 - C48 and C55 say what it is), given the tables,
the name and version set last, and the registry. -/
def toWrite (limit : Nat → Nat) (tables : List (LTable δ)) (mods : List ModEvent) (reg : Registry P C) : Writing → Option (M CStr)
  | .syntax i suffix => tables[i]?.map fun T => printSyntax T.t.entries suffix
  | .syntaxv i suffix => tables[i]?.map fun T => printSyntaxv T.t.entries suffix
  | .glossary i _ fmt2 => tables[i]?.map fun T => printGlossary fmt2 T.t.entries
  | .glossaryGnu i fuel => tables[i]?.map fun T => printGlossaryGnu fuel T.t.entries
  | .errors i prog => tables[i]?.map fun T => printErrors T.t prog
  | .formatted fuel lmargin rmargin text => some (printFormatted fuel lmargin rmargin text)
  | .getHelp => some (.ok (makeGetHelpMsg (mods.foldl runMod modInit)))
  | .help name i => tables[i]?.map fun T => makeHelpMsg limit (mods.foldl runMod modInit) reg name T.t.entries
  | .syntaxErr i => tables[i]?.map fun T => makeSyntaxErrMsg (mods.foldl runMod modInit) T.t

/-- The table that a call is about. -/
def tableOf : Writing → Option Nat
  | .syntax i _ | .syntaxv i _ | .glossary i _ _ | .glossaryGnu i _ | .errors i _ | .help _ i | .syntaxErr i => some i
  | .formatted .. | .getHelp => none

/-- The length of the format passed to the call. -/
def formatOf : Writing → Nat
  | .glossary _ fmtlen _ => fmtlen
  | _ => 0

/-- What a program may do: tables as in C73, strings as in C79, names and commands as documented.  A call may write to an object
that exists; its table must not have been freed, and the string must not get too long for an `int`. -/
def LegalOp (lc : Libc δ) (env : Bool) (limit : Nat → Nat) (p : Program δ P C) (l : Ledger P C) : ProgOp δ P C → Prop
  | .table op => Permitted lc env p.world op
  | .string c => c.Sensible l.texts
  | .module e => e.Sane
  | .command e => e.fits
  | .write k t => Present l.texts k ∧ (∀ i, tableOf t = some i → ∃ T, p.world.tables[i]? = some T ∧ Unfreed T) ∧
      formatOf t ≤ 500000000 ∧
      ∃ out, toWrite limit p.world.tables l.mods p.reg t = some (.ok out) ∧ '\x00' ∉ out ∧
        (stringOf l.texts k).length + out.length ≤ 500000000

/-- What the client writes down about a step. -/
def noted (limit : Nat → Nat) (p : Program δ P C) (l : Ledger P C) : ProgOp δ P C → Ledger P C
  | .table _ => l
  | .string c => { l with texts := c.after l.texts, strings := l.strings ++ [c] }
  | .module e => { l with mods := l.mods ++ [e] }
  | .command e => { l with cmds := l.cmds ++ [e] }
  | .write k t =>
    match toWrite limit p.world.tables l.mods p.reg t with
    | some (.ok out) => { l with texts := l.texts.set k (some (stringOf l.texts k ++ out)) }
    | _ => l

/-- A program that has not done anything but `arg_cmd_init`: the memory and the stream may have any contents, and the variables
of getopt any values. -/
def Beginning (limit : Nat → Nat) (w0 : World δ) : Program δ P C :=
  { world := { w0 with tables := [] }, objs := [], log := [], name := none, tag := none, ver := none, reg := cmdInit limit }

/-- The states that a program can reach when all it does is legal, and its notes. -/
inductive Course (lc : Libc δ) (a : Abi) (addr : Nat → Nat) (env : Bool) (limit : Nat → Nat) (w0 : World δ) :
    Program δ P C → Ledger P C → Prop
  | start : Course lc a addr env limit w0 (Beginning limit w0) Ledger.empty
  | step {p p' : Program δ P C} {l : Ledger P C} {op : ProgOp δ P C} {fuel : Nat} : Course lc a addr env limit w0 p l →
      LegalOp lc env limit p l op → progStep lc a addr env limit fuel p op = .ok p' →
      Course lc a addr env limit w0 p' (noted limit p l op)

/-- The block that an `arg_dstr` object is responsible for, if any: that of its buffer for appending, or that of a string that
was handed over to it. -/
def blockOf (d : Dstr) : List Nat :=
  match d.appendData, d.freeProc, d.data.loc with
  | some a, _, _ => [a]
  | none, .dynamic, .blk a => [a]
  | none, .custom _, .blk a => [a]
  | _, _, _ => []

/-- The blocks of the strings. -/
def stringBlocks (objs : List (Option Dstr)) : List Nat := objs.flatMap fun | some d => blockOf d | none => []

/-- The blocks of the name and the version. -/
def moduleBlocks (p : Program δ P C) : List Nat := p.name.toList ++ p.tag.toList ++ p.ver.toList

/-- The strings that the client passed with `ARG_DSTR_STATIC`: they stay its own. -/
def Ledger.statics (l : Ledger P C) : List CStr := l.strings.flatMap SCmd.static

end Argtable.Spec
