import Verif.Spec.Cmdline
/-!
# Specification of option texts, syntax lines, glossaries and word wrapping
-/

namespace Argtable.Spec

variable {σ : Type}

/-- An optional C string: no NUL inside. -/
def CText (s : Option CStr) : Prop := ∀ t, s = some t → '\x00' ∉ t

/-- The strings of an entry are C strings. -/
def CHdr (h : Hdr σ) : Prop := CText h.shortopts ∧ CText h.longopts ∧ CText h.datatype

/-- The value of an option as shown to the user: its data type, in brackets if it may be left out. -/
def valueText (datatype : CStr) (optional : Bool) : CStr :=
  if optional then cs "[" ++ datatype ++ cs "]" else datatype

/-- The short spellings `-a<sep>-b...`. -/
def shortsText (sep so : CStr) : CStr := sep.intercalate (so.map (fun c => ['-', c]))

/-- The long spellings `--foo<sep>--bar...`; a trailing comma adds a trailing separator. -/
def longsText (sep lo : CStr) : CStr :=
  sep.intercalate ((namesOf lo).map (cs "--" ++ ·)) ++ (if lo.getLast? = some ',' then sep else [])

/-- All spellings of an option, and its value. -/
def fullOptionv (short long datatype : Option CStr) (optional : Bool) (sep : CStr) : CStr :=
  (match short with | some so => shortsText sep so | none => []) ++
  (if short.isSome ∧ long.isSome then sep else []) ++
  (match long with | some lo => longsText sep lo | none => []) ++
  (match datatype with
   | some d => (if long.isSome then cs "=" else if short.isSome then cs " " else []) ++
      valueText d optional
   | none => [])

/-- The preferred spelling of an option (its first short one if it has any, else its first long one),
and its value. -/
def fullOption (short long datatype : Option CStr) (optional : Bool) : CStr :=
  match short, long, datatype with
  | some so, _, some d => cs "-" ++ so.take 1 ++ cs " " ++ valueText d optional
  | some so, _, none => cs "-" ++ so.take 1
  | none, some lo, some d => cs "--" ++ (namesOf lo).headD [] ++ cs "=" ++ valueText d optional
  | none, some lo, none => cs "--" ++ (namesOf lo).headD []
  | none, none, some d => valueText d optional
  | none, none, none => []

/-- `s` is what a 200 byte buffer can show of `full`: all of it if it has at most 198 characters,
otherwise at least its first 198 characters and nothing but one more character. -/
def Clipped (full s : CStr) : Prop :=
  (full.length ≤ 198 → s = full) ∧ s.take 198 = full.take 198 ∧ s.length ≤ 199

/-! ### Syntax lines -/

/-- A switch: it has a short option and takes no value. -/
def Switch (h : Hdr σ) : Bool := h.shortopts.isSome && !h.hasValue

/-- The abbreviated switches: ` -abc` for mandatory `a`, `b`, `c`; ` [-de]` for optional `d`, `e`;
` -abc[de]` for both. -/
def switchText (es : List (Hdr σ)) : CStr :=
  let ms := es.filter (fun h => Switch h && decide (1 ≤ h.mincount))
  let os := es.filter (fun h => Switch h && !decide (1 ≤ h.mincount))
  let first := fun (l : List (Hdr σ)) => l.flatMap (fun h => (h.shortopts.getD []).take 1)
  match ms, os with
  | [], [] => []
  | _ :: _, [] => cs " -" ++ first ms
  | [], _ :: _ => cs " [-" ++ first os ++ cs "]"
  | _ :: _, _ :: _ => cs " -" ++ first ms ++ cs "[" ++ first os ++ cs "]"

/-- The words of the syntax line for an entry shown as `s`: the mandatory instances, then the optional
ones in brackets. -/
def mentions (s : CStr) (mincount maxcount : Int) : List CStr :=
  List.replicate mincount.toNat s ++
  (if maxcount = mincount then []
   else if maxcount = mincount + 1 then [cs "[" ++ s ++ cs "]"]
   else if maxcount = mincount + 2 then [cs "[" ++ s ++ cs "]", cs "[" ++ s ++ cs "]"]
   else [cs "[" ++ s ++ cs "]..."])

/-- Words, each preceded by a space. -/
def spaced (ws : List CStr) : CStr := ws.flatMap (fun w => cs " " ++ w)

/-- Text `s` for entry `h` on the syntax line. -/
def entryText (h : Hdr σ) (s : CStr) : CStr := spaced (mentions s h.mincount h.maxcount)

/-! ### Word wrapping -/

/-- A maximal run of non-white characters at the front of `s`. -/
def frontWord (s : CStr) : CStr := s.takeWhile (fun c => !isSpace c)

/-- The white space at the front of `s`. -/
def frontGap (s : CStr) : CStr := s.takeWhile isSpace

/-- `text` laid out as `lines` in a column of `w` characters: the leading blanks of each line are
dropped, then
* `rest`: what remains fits the column, and is shown up to its end,
* `newline`: the line is shown up to a newline, which is consumed,
* `wrap`: the line ends before white space, because the next word does not fit,
* `cut`: the line is the first `w` characters of a longer word. -/
inductive Wraps (w : Nat) : CStr → List CStr → Prop
  | nil : Wraps w [] []
  | rest {lead body : CStr} : lead ++ body ≠ [] → (∀ c ∈ lead, isSpace c = true ∧ c ≠ '\n') →
      (∀ c ∈ body.head?, ¬ (isSpace c = true ∧ c ≠ '\n')) →
      '\n' ∉ body → body.length ≤ w → Wraps w (lead ++ body) [body]
  | newline {lead body more : CStr} {lines : List CStr} :
      (∀ c ∈ lead, isSpace c = true ∧ c ≠ '\n') →
      (∀ c ∈ body.head?, ¬ (isSpace c = true ∧ c ≠ '\n')) →
      '\n' ∉ body → body.length ≤ w → Wraps w more lines →
      Wraps w (lead ++ body ++ '\n' :: more) (body :: lines)
  | wrap {lead body more : CStr} {lines : List CStr} :
      (∀ c ∈ lead, isSpace c = true ∧ c ≠ '\n') →
      (∀ c ∈ body.head?, isSpace c = false) → (∀ c ∈ body.getLast?, isSpace c = false) → body ≠ [] →
      '\n' ∉ body → body.length ≤ w → frontGap more ≠ [] →
      w < body.length + (frontGap more).length +
        (frontWord (more.drop (frontGap more).length)).length →
      Wraps w more lines → Wraps w (lead ++ body ++ more) (body :: lines)
  | cut {lead body more : CStr} {lines : List CStr} :
      (∀ c ∈ lead, isSpace c = true ∧ c ≠ '\n') → (∀ c ∈ body, isSpace c = false) → body.length = w →
      frontWord more ≠ [] → Wraps w more lines → Wraps w (lead ++ body ++ more) (body :: lines)

/-- Lines one below the other: each ends with a newline, and all but the first may be indented. -/
inductive LaidOut (indent : CStr) : List CStr → CStr → Prop
  | nil : LaidOut indent [] []
  | one (l : CStr) : LaidOut indent [l] (l ++ ['\n'])
  | indented (l : CStr) {ls : List CStr} {out : CStr} : ls ≠ [] → LaidOut indent ls out →
      LaidOut indent (l :: ls) (l ++ ['\n'] ++ indent ++ out)
  | flush (l : CStr) {ls : List CStr} {out : CStr} : ls ≠ [] → LaidOut indent ls out →
      LaidOut indent (l :: ls) (l ++ ['\n'] ++ out)

/-- Lines one below the other, all but the first indented. -/
def indentedLines (indent : CStr) : List CStr → CStr
  | [] => []
  | l :: ls => l ++ ['\n'] ++ ls.flatMap (fun m => indent ++ m ++ ['\n'])

/-- The words of a text: the maximal runs of non-white characters. -/
def wordsOf (s : CStr) : List CStr := (s.splitOnP isSpace).filter (· ≠ [])

/-- The width of the column between two margins, both included; the margins are 32-bit unsigned
numbers. -/
def columnWidth (lmargin rmargin : Nat) : Nat := (rmargin + 4294967296 - lmargin + 1) % 4294967296

/-! ### Glossary with the default format -/

/-- `text` is the glossary line of `h` in the default format: its spellings indented by two blanks, at least
one blank, its description, and the end of the line; the description starts in column 23 (counted from
0) if the spellings leave room for that. -/
def DefaultLine (h : Hdr σ) (text : CStr) : Prop :=
  ∃ g s gap, h.glossary = some g ∧
    Clipped (fullOptionv h.shortopts h.longopts h.datatype h.hasOptValue (cs ", ")) s ∧
    text = ' ' :: ' ' :: s ++ List.replicate gap ' ' ++ g ++ ['\n'] ∧ 1 ≤ gap ∧
    (s.length ≤ 20 → 2 + s.length + gap = 23) ∧ (20 < s.length → gap = 1)

/-! ### GNU style glossary -/

/-- The option column of the GNU style glossary: 25 characters wide; a longer text is put on a line of
its own. -/
def gnuColumn (s : CStr) : CStr :=
  if s.length ≤ 25 then cs "  " ++ s ++ List.replicate (25 - s.length) ' ' ++ cs " "
  else cs "  " ++ s ++ cs " \n" ++ List.replicate 28 ' '

/-- `text` is the GNU style glossary entry of `h`: its spellings, those without a short option indented
by four, and its description wrapped in columns 28 to 79. -/
def GnuEntry (h : Hdr σ) (text : CStr) : Prop :=
  ∃ g s lines body, h.glossary = some g ∧
    Clipped ((if h.shortopts = none ∧ h.longopts ≠ none then cs "    " else []) ++
      fullOptionv h.shortopts h.longopts h.datatype h.hasOptValue (cs ", ")) s ∧
    Wraps 52 g lines ∧ LaidOut (List.replicate 28 ' ') lines body ∧ text = gnuColumn s ++ body

end Argtable.Spec
