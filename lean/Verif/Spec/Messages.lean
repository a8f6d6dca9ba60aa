import Verif.Spec.Print
import Verif.Spec.Live
/-!
# Specification of the error messages
-/

namespace Argtable.Spec

variable {σ : Type}

/-- `s` shows all spellings of the option of `h` together with `value`. -/
def OptText (h : Hdr σ) (value : Option CStr) (s : CStr) : Prop :=
  Clipped (fullOptionv h.shortopts h.longopts value false (cs "|")) s

/-- The message of program `prog` about an error with table entry `h` and value `a`. -/
inductive EntrySays (h : Hdr σ) (prog : CStr) : (code : Int) → (a : Option CStr) → CStr → Prop
  | missing {a s} : h.hasValue = true → OptText h h.datatype s →
      EntrySays h prog ARG_ERR_MINCOUNT a (prog ++ cs ": missing option " ++ s ++ cs "\n")
  /-- For options without value an empty line follows. -/
  | missingSwitch {a s} : h.hasValue = false → OptText h h.datatype s →
      EntrySays h prog ARG_ERR_MINCOUNT a (prog ++ cs ": missing option " ++ s ++ cs "\n\n")
  | excess {a s} : h.hasValue = true → OptText h (some (a.getD [])) s →
      EntrySays h prog ARG_ERR_MAXCOUNT a (prog ++ cs ": excess option " ++ s ++ cs "\n")
  | extraneous {a s} : h.hasValue = false → OptText h h.datatype s →
      EntrySays h prog ARG_ERR_MAXCOUNT a (prog ++ cs ": extraneous option " ++ s ++ cs "\n")
  | badInt {a s} : OptText h h.datatype s →
      EntrySays h prog ARG_ERR_BADINT (some a)
        (prog ++ cs ": invalid argument \"" ++ a ++ cs "\" to option " ++ s ++ cs "\n")
  | overflow {a s} : OptText h h.datatype s →
      EntrySays h prog ARG_ERR_OVERFLOW (some a)
        (prog ++ cs ": integer overflow at option " ++ s ++ cs " (" ++ a ++ cs " is too large)\n")
  | badDouble {a s} : OptText h h.datatype s →
      EntrySays h prog ARG_ERR_BADDOUBLE (some a)
        (prog ++ cs ": invalid argument \"" ++ a ++ cs "\" to option " ++ s ++ cs "\n")
  | badDate {a sample} :
      EntrySays h prog ARG_ERR_BADDATE (some a)
        (prog ++ cs ": illegal timestamp format \"" ++ a ++ cs "\"\ncorrect format is \"" ++ sample ++
          cs "\"\n")
  | noMatch {a s} : OptText h (some a) s →
      EntrySays h prog ARG_ERR_REGNOMATCH (some a)
        (prog ++ cs ": illegal value  " ++ s ++ cs "\n")

/-- The message about an error that belongs to no entry. -/
inductive GeneralSays (prog : CStr) : (code : Int) → (a : Option CStr) → CStr → Prop
  | tooMany : GeneralSays prog ARG_ELIMIT none (prog ++ cs ": too many errors to display\n")
  | unexpected {a} : GeneralSays prog ARG_ENOMATCH (some a)
      (prog ++ cs ": unexpected argument \"" ++ a ++ cs "\"\n")
  | needsValue {a} : GeneralSays prog ARG_EMISSARG (some a)
      (prog ++ cs ": option \"" ++ a ++ cs "\" requires an argument\n")
  | badLong {a} : GeneralSays prog ARG_ELONGOPT (some a)
      (prog ++ cs ": invalid option \"" ++ a ++ cs "\"\n")
  | badShort {c : Char} : GeneralSays prog (charInt c) none
      (prog ++ cs ": invalid option \"-" ++ [c] ++ cs "\"\n")

/-- The message about the error record `r`, for the table entries `es`. -/
def Says (es : List (Hdr σ)) (prog : CStr) (r : ErrRec) (msg : CStr) : Prop :=
  match r.parent with
  | .endt => GeneralSays prog r.error r.argval msg
  | .entry i => ∃ h, es[i]? = some h ∧ EntrySays h prog r.error r.argval msg

/-- If the entry is an `arg_date` with format `fm`, its sample date (all members 0, see C72) fits the buffer of 200
bytes in which the message is put together. -/
def SampleFits {δ : Type} (lc : Libc δ) (h : Hdr (Obj δ)) : Prop :=
  ∀ so lo fm dt mn mx gl h', argDaten lc so lo fm dt mn mx gl = .ok h' → h.errorfn = h'.errorfn →
    (lc.strftime (fm.getD (cs "%x")) {}).length < 200

/-- The argument does not start with `-`, or has none of the bytes 1 to 5. -/
def NoLowBytes (a : CStr) : Prop :=
  a.head? = some '-' → ∀ c ∈ a, c ∉ [Char.ofNat 1, Char.ofNat 2, Char.ofNat 3, Char.ofNat 4, Char.ofNat 5]

end Argtable.Spec
