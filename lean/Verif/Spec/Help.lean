import Verif.Model.Help
import Verif.Spec.Cmd
import Verif.Spec.Print
/-!
# Specification of help messages and usage errors
-/

namespace Argtable.Spec

variable {σ : Type}

/-- What a client says about the program. -/
inductive ModEvent where
  | name (n : CStr)
  | version (major minor patch : Int) (tag : CStr)

/-- Running one event. -/
def runMod (m : ModInfo) : ModEvent → ModInfo
  | .name n => setModuleName m n
  | .version a b c tag => setModuleVersion m a b c tag

/-- The name given last, if it is not empty. -/
def progName (evs : List ModEvent) : CStr :=
  match evs.reverse.findSome? (fun | .name n => some n | _ => none) with
  | some (c :: n) => c :: n
  | _ => cs "<name>"

/-- A number as it is written in decimal: `-3`, `0`, `17`. -/
def decimal (n : Int) : CStr := (toString n).toList

/-- The version given last. -/
def progVersion (evs : List ModEvent) : CStr :=
  match evs.reverse.findSome? (fun | .version a b c tag => some (a, b, c, tag) | _ => none) with
  | some (a, b, c, tag) => decimal a ++ cs "." ++ decimal b ++ cs "." ++ decimal c ++ cs "." ++ tag
  | none => cs "0.0.0.0"

/-- All spellings of the option of an entry, and its value. -/
def spellings (sep : CStr) (h : Hdr σ) : CStr :=
  fullOptionv h.shortopts h.longopts h.datatype h.hasOptValue sep

/-- The texts of the entries fit their buffers. -/
def FitsLine (es : List (Hdr σ)) : Prop :=
  ∀ h ∈ es, (spellings (cs "|") h).length ≤ 198 ∧ (spellings (cs ", ") h).length ≤ 198

/-- The syntax line. -/
def usageLine (prog : CStr) (es : List (Hdr σ)) : CStr :=
  cs "  " ++ prog ++ es.flatMap (fun h => entryText h (spellings (cs "|") h)) ++ cs "\n"

/-- One line of the list of options: the spellings in a column of 23 characters, and the description. -/
def optionLine (h : Hdr σ) (description : CStr) : CStr :=
  cs "  " ++ spellings (cs ", ") h ++ List.replicate (23 - (spellings (cs ", ") h).length) ' ' ++ cs " " ++ description ++ cs "\n"

/-- The help message for a command with an optional description. -/
def helpText (cmd : CStr) (description : Option CStr) (prog : CStr) (es : List (Hdr σ)) : CStr :=
  (match description with | some d => cmd ++ cs ": " ++ d ++ cs "\n" | none => []) ++
  cs "Usage:\n" ++ usageLine prog es ++ cs " \nAvailable options:\n" ++
  es.flatMap (fun h => match h.glossary with | some g => optionLine h g | none => []) ++ cs "\n"

/-- What follows the error messages. -/
def usageText (prog : CStr) (es : List (Hdr σ)) : CStr := cs "Usage: \n" ++ usageLine prog es ++ cs "\n"

end Argtable.Spec
