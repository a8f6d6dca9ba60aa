import Verif.Spec.Date
/-!
# What `strftime` prints

In the C locale, as the C standard has it (C99 7.23.3.5).  The standard leaves open what is printed for a member
outside its range; here it is printed as a number, as common C libraries do.
-/

namespace Argtable.Spec

/-- The number `n` in decimal, filled up on the left to at least `w` characters. -/
def filled (fill : Char) (w : Nat) (n : Int) : CStr :=
  let d := (if n < 0 then ['-'] else []) ++ Nat.toDigits 10 n.natAbs
  List.replicate (w - d.length) fill ++ d

/-- Name number `i`, or a question mark. -/
def nameOf (names : List CStr) (i : Int) : CStr := if i < 0 then ['?'] else names.getD i.toNat ['?']

/-- The conversions of `strftime` that print one member, and `%n`, `%t`, `%%`. -/
def printItem (t : Tm) (c : Char) : Option CStr :=
  if c = 'a' then some ((nameOf days t.wday).take 3)
  else if c = 'A' then some (nameOf days t.wday)
  else if c = 'b' ∨ c = 'h' then some ((nameOf months t.mon).take 3)
  else if c = 'B' then some (nameOf months t.mon)
  else if c = 'C' then some (filled '0' 2 ((t.year + 1900) / 100))
  else if c = 'd' then some (filled '0' 2 t.mday)
  else if c = 'e' then some (filled ' ' 2 t.mday)
  else if c = 'H' then some (filled '0' 2 t.hour)
  else if c = 'I' then some (filled '0' 2 (if t.hour % 12 = 0 then 12 else t.hour % 12))
  else if c = 'j' then some (filled '0' 3 (t.yday + 1))
  else if c = 'm' then some (filled '0' 2 (t.mon + 1))
  else if c = 'M' then some (filled '0' 2 t.min)
  else if c = 'n' then some ['\n']
  else if c = 'p' then some (if t.hour < 12 then cs "AM" else cs "PM")
  else if c = 'S' then some (filled '0' 2 t.sec)
  else if c = 't' then some ['\t']
  else if c = 'u' then some (filled '0' 1 (if t.wday = 0 then 7 else t.wday))
  else if c = 'U' then some (filled '0' 2 ((t.yday + 7 - t.wday) / 7))
  else if c = 'w' then some (filled '0' 1 t.wday)
  else if c = 'W' then some (filled '0' 2 ((t.yday + 7 - (t.wday + 6) % 7) / 7))
  else if c = 'y' then some (filled '0' 2 ((t.year + 1900) % 100))
  else if c = 'Y' then some (filled '0' 1 (t.year + 1900))
  else if c = '%' then some ['%']
  else none

/-- The conversions of `strftime` that stand for a format. -/
def printGroup (c : Char) : Option CStr :=
  if c = 'c' then some (cs "%a %b %e %H:%M:%S %Y")
  else if c = 'D' ∨ c = 'x' then some (cs "%m/%d/%y")
  else if c = 'F' then some (cs "%Y-%m-%d")
  else if c = 'r' then some (cs "%I:%M:%S %p")
  else if c = 'R' then some (cs "%H:%M")
  else if c = 'T' ∨ c = 'X' then some (cs "%H:%M:%S")
  else none

/-- A format, printed with `conv` for the conversions; the modifiers `E` and `O` make no difference in the C locale.
`none` if there is a conversion that is not described here. -/
def printFmt (conv : Char → Option CStr) : CStr → Option CStr
  | [] => some []
  | a :: fmt =>
    if a ≠ '%' then (printFmt conv fmt).map (a :: ·)
    else match fmt with
      | [] => none
      | c :: fmt =>
        if c = 'E' ∨ c = 'O' then
          match fmt with
          | [] => none
          | c :: fmt => (conv c).bind fun w => (printFmt conv fmt).map (w ++ ·)
        else (conv c).bind fun w => (printFmt conv fmt).map (w ++ ·)

/-- One conversion. -/
def printConv (t : Tm) (c : Char) : Option CStr :=
  (printItem t c).or ((printGroup c).bind (printFmt (printItem t)))

/-- What `strftime` prints for a format and a date. -/
def printDate (fmt : CStr) (t : Tm) : Option CStr := printFmt (printConv t) fmt

/-- The C library has this `strftime`. -/
def StrftimeC {δ : Type} (lc : Libc δ) : Prop := ∀ fmt t s, printDate fmt t = some s → lc.strftime fmt t = s

/-- The format is at its end, or goes on with a character that is not a letter, a digit or a conversion. -/
def SetApart (fmt : CStr) : Prop := fmt = [] ∨ ∃ a f, fmt = a :: f ∧ isAlnum a = false ∧ a ≠ '%'

/-- A date format without ambiguities: made of characters, white space, conversions to numbers, and names of days and
months and space-filled days of the month that are set apart from what follows; AM or PM can only be at the end.
`full` says whether it mentions the day of the month, or has a conversion that `strftime` knows but `arg_date` does not
(`%F`, `%u`), or `%c`, which the two understand differently. -/
inductive TidyFmt : (fmt : CStr) → (full : Bool) → Prop
  | nil : TidyFmt [] false
  | char (a : Char) (fmt : CStr) (b : Bool) : a ≠ '%' → TidyFmt fmt b → TidyFmt (a :: fmt) b
  | conv (c : Char) (m : Option Char) (fmt fmt' : CStr) (b : Bool) : Directive fmt m c fmt' → ModOk m c →
      c ∈ cs "HIjmMSUwWyYCnt%RTX" → TidyFmt fmt' b → TidyFmt fmt b
  | name (c : Char) (fmt : CStr) (b : Bool) : c ∈ cs "aAbBh" → SetApart fmt → TidyFmt fmt b → TidyFmt ('%' :: c :: fmt) b
  | half (c : Char) : c ∈ cs "pr" → TidyFmt ['%', c] false
  | day (c : Char) (m : Option Char) (fmt fmt' : CStr) (b : Bool) : Directive fmt m c fmt' → ModOk m c →
      c ∈ cs "dDxcFu" ∨ c = 'e' ∧ SetApart fmt' → TidyFmt fmt' b → TidyFmt fmt true

end Argtable.Spec
