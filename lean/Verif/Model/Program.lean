import Verif.Model.Life
import Verif.Model.ModMem
import Verif.Spec.Several
import Verif.Spec.Module
/-!
# A program that uses all parts of the library

`Model/Life.lean` is a program that works with tables, `Spec/Several.lean` one that works with `arg_dstr` objects,
`Model/ModMem.lean` the module name and version, `Model/Cmd.lean` the registry of commands.  Here one program does all of
this, in any order and with one memory, and lets the printing functions write to its own `arg_dstr` objects.

The nodes of the registry are not in this memory (`Model/CmdMem.lean` is about them).  A message that contains the module
name reads it once, before it begins to write; the code calls `module_name` whenever it needs the name.
-/

namespace Argtable

open Spec

variable {δ P C : Type}

/-- The state of the program.  `world`: the memory, the output, the variables of getopt, and the tables (`Model/Life.lean`).
`objs` and `log`: the `arg_dstr` objects, and the calls of the client's functions (`Spec/Several.lean`).  `name`, `tag` and
`ver`: the variables of arg_cmd.c:46-51 (`Model/ModMem.lean`).  `reg`: the variable of arg_cmd.c:45. -/
structure Program (δ P C : Type) where
  world : World δ
  objs : List (Option Dstr)
  log : List (Nat × Nat × CStr)
  name : Option Nat
  tag : Option Nat
  ver : Option Nat
  reg : Registry P C

/-- The `arg_dstr` objects and the memory. -/
def Program.shelf (p : Program δ P C) : Shelf := ⟨p.world.heap, p.objs, p.log⟩

/-- The variables of arg_cmd.c and the memory. -/
def Program.mod (p : Program δ P C) : ModMem := ⟨p.world.heap, p.name, p.tag, p.ver⟩

/-- After something was done to the `arg_dstr` objects. -/
def Program.withShelf (p : Program δ P C) (s : Shelf) : Program δ P C :=
  { p with world := { p.world with heap := s.heap }, objs := s.objs, log := s.log }

/-- After something was done to the variables of arg_cmd.c. -/
def Program.withMod (p : Program δ P C) (m : ModMem) : Program δ P C :=
  { p with world := { p.world with heap := m.heap }, name := m.name, tag := m.tag, ver := m.ver }

/-- The calls that write to an `arg_dstr` object: `arg_print_syntax_ds`, `arg_print_syntaxv_ds`, `arg_print_glossary_ds`,
`arg_print_glossary_gnu_ds` and `arg_print_errors_ds` for table number `i`, `arg_print_formatted_ds`,
`arg_make_get_help_msg`, `arg_make_help_msg` and `arg_make_syntax_err_msg`.  For `fuel`, `fmtlen` and `fmt2` see
`Model/Stream.lean`. -/
inductive Writing where
  | syntax (i : Nat) (suffix : Option CStr)
  | syntaxv (i : Nat) (suffix : Option CStr)
  | glossary (i : Nat) (fmtlen : Nat) (fmt2 : CStr → CStr → CStr)
  | glossaryGnu (i : Nat) (fuel : Nat)
  | errors (i : Nat) (prog : CStr)
  | formatted (fuel lmargin rmargin : Nat) (text : CStr)
  | getHelp
  | help (name : CStr) (i : Nat)
  | syntaxErr (i : Nat)

/-- Table number `i`, all of whose pointers are followed.  (a `void** argtable` of the program, argtable3.c:427.) -/
def Program.entry (p : Program δ P C) (i : Nat) : M (LTable δ) := do
  let T ← p.world.table i
  touchAll T.ptrs p.world.heap
  .ok T

/-- The module name and version, read from memory (`module_name` and `module_version`, arg_cmd.c:221-233). -/
def Program.about (p : Program δ P C) : M ModInfo := do
  let n ← moduleNameMem p.mod
  let v ← moduleVersionMem p.mod
  .ok ⟨some n, some v⟩

/-- The function that writes (`Model/Stream.lean`).  (argtable3.c:640-1031, arg_end.c:115-130.) -/
def Writing.run (limit : Nat → Nat) (p : Program δ P C) : Writing → M (DState → M DState)
  | .syntax i suffix => do let T ← p.entry i; .ok (syntaxDs T.t.entries suffix)
  | .syntaxv i suffix => do let T ← p.entry i; .ok (syntaxvDs T.t.entries suffix)
  | .glossary i fmtlen fmt2 => do let T ← p.entry i; .ok (glossaryDs fmtlen fmt2 T.t.entries)
  | .glossaryGnu i fuel => do let T ← p.entry i; .ok (glossaryGnuDs fuel T.t.entries)
  | .errors i prog => do let T ← p.entry i; .ok (errorsDs T.t T.err prog)
  | .formatted fuel lmargin rmargin text => .ok (formattedDs fuel lmargin rmargin text)
  | .getHelp => do let m ← p.about; .ok (getHelpDs m)
  | .help name i => do let T ← p.entry i; let m ← p.about; .ok (helpDs limit m p.reg name T.t.entries)
  | .syntaxErr i => do let T ← p.entry i; let m ← p.about; .ok (syntaxErrDs m T.t T.err)

/-- What the program does next.  (calls of the functions of argtable3.h:272-551.) -/
inductive ProgOp (δ P C : Type) where
  /-- something with tables -/
  | table (op : LifeOp δ)
  /-- a call of a function of arg_dstr.c -/
  | string (c : SCmd)
  /-- `arg_set_module_name` or `arg_set_module_version` -/
  | module (e : ModEvent)
  /-- `arg_cmd_register` or `arg_cmd_unregister` -/
  | command (e : CmdEvent P C)
  /-- a call that writes to the `arg_dstr` object number `k` -/
  | write (k : Nat) (t : Writing)

/-- One step of the program.  (a call of one of the functions of argtable3.h:272-551.) -/
def progStep (lc : Libc δ) (a : Abi) (addr : Nat → Nat) (env : Bool) (limit : Nat → Nat) (fuel : Nat) (p : Program δ P C) :
    ProgOp δ P C → M (Program δ P C)
  | .table op => do
    let w ← lifeStep lc a addr env fuel p.world op
    .ok { p with world := w }
  | .string c => do
    let s ← c.exec p.shelf
    .ok (p.withShelf s)
  | .module e => do
    let m ← runModMem p.mod e
    .ok (p.withMod m)
  | .command e => do
    let r ← runEvent limit p.reg e
    .ok { p with reg := r }
  | .write k t => do
    let f ← t.run limit p
    let s ← p.shelf.on k f
    .ok (p.withShelf s)

end Argtable
