import Verif.Model.Cmd
import Verif.Model.Objects
import Verif.Model.Print

/-!
# Model of the module information and of the messages composed in src/arg_cmd.c

Functions that append to an `arg_dstr_t` return the text they append.  Memory for the module name and
version is not modelled: each setter frees the previous copy and stores a new one.
-/

namespace Argtable

variable {P C σ : Type}

/-- The static variables `s_module_name` and `s_mod_ver` (arg_cmd.c:46-51); `none` for NULL.  The other
version variables are only read by the setter itself. -/
structure ModInfo where
  name : Option CStr
  ver : Option CStr
deriving DecidableEq, Repr

/-- Their initial values (arg_cmd.c:46,51). -/
def modInit : ModInfo := { name := none, ver := none }

/-- `printf`'s `%d`.  (for the calls of `arg_dstr_catf` in arg_cmd.c:68-92.) -/
def decText (n : Int) : CStr :=
  if n < 0 then '-' :: Nat.toDigits 10 n.natAbs else Nat.toDigits 10 n.natAbs

/-- `arg_set_module_name` (arg_cmd.c:53-66). -/
def setModuleName (m : ModInfo) (name : CStr) : ModInfo := { m with name := some name }

/-- `arg_set_module_version` (arg_cmd.c:68-105). -/
def setModuleVersion (m : ModInfo) (major minor patch : Int) (tag : CStr) : ModInfo :=
  let ds := []
  let ds := ds ++ (decText major ++ cs ".")
  let ds := ds ++ (decText minor ++ cs ".")
  let ds := ds ++ (decText patch ++ cs ".")
  let ds := ds ++ tag
  { m with ver := some ds }

/-- `module_name` (arg_cmd.c:221-226). -/
def moduleName (m : ModInfo) : CStr :=
  match m.name with
  | none => cs "<name>"
  | some n => if n.length = 0 then cs "<name>" else n

/-- `module_version` (arg_cmd.c:228-233). -/
def moduleVersion (m : ModInfo) : CStr :=
  match m.ver with
  | none => cs "0.0.0.0"
  | some v => if v.length = 0 then cs "0.0.0.0" else v

/-- `arg_make_get_help_msg` (arg_cmd.c:235-238). -/
def makeGetHelpMsg (m : ModInfo) : CStr :=
  let res := []
  let res := res ++ (moduleName m ++ cs " v" ++ moduleVersion m ++ cs "\n")
  res ++ (cs "Please type '" ++ moduleName m ++ cs " help' to get more information.\n")

/-- The glossary format of the help message, arg_cmd.c:250. -/
def helpGlossary (syn g : CStr) : CStr := cs "  " ++ padRight 23 syn ++ cs " " ++ g ++ cs "\n"

/-- `arg_make_help_msg` (arg_cmd.c:240-253). -/
def makeHelpMsg (limit : Nat → Nat) (m : ModInfo) (reg : Registry P C) (cmdName : CStr) (es : List (Hdr σ)) : M CStr := do
  let t ← reg.get
  let info ← hashSearch (cmdFns limit) t cmdName
  let ds := match info with
    | some i => cmdName ++ cs ": " ++ i.description ++ cs "\n"
    | none => []
  let ds := ds ++ cs "Usage:\n"
  let ds := ds ++ (cs "  " ++ moduleName m)
  let syn ← printSyntaxv es (some (cs "\n \nAvailable options:\n"))
  let ds := ds ++ syn
  let glo ← printGlossary helpGlossary es
  let ds := ds ++ glo
  .ok (ds ++ cs "\n")

/-- `arg_make_syntax_err_msg` (arg_cmd.c:255-261), for the table that `end` belongs to. -/
def makeSyntaxErrMsg (m : ModInfo) (t : Table σ) : M CStr := do
  let ds ← printErrors t (moduleName m)
  let ds := ds ++ cs "Usage: \n"
  let ds := ds ++ (cs "  " ++ moduleName m)
  let syn ← printSyntaxv t.entries (some (cs "\n"))
  let ds := ds ++ syn
  .ok (ds ++ cs "\n")

/-- `arg_make_syntax_err_help_msg` (arg_cmd.c:263-281): the appended text, the value of `*exitcode`
afterwards, the result. -/
def makeSyntaxErrHelpMsg (limit : Nat → Nat) (m : ModInfo) (reg : Registry P C) (name : CStr) (help nerrors : Int)
    (t : Table σ) (exitcode : Int) : M (CStr × Int × Int) := do
  if help > 0 then
    let ds ← makeHelpMsg limit m reg name t.entries
    .ok (ds, 0, 1)
  else if nerrors > 0 then
    let ds ← makeSyntaxErrMsg m t
    .ok (ds, 1, 1)
  else .ok ([], exitcode, 0)

end Argtable
