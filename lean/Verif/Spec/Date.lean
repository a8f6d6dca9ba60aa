import Verif.Spec.Integer
import Verif.Model.Objects
/-!
# Date formats

What it means for a text to match a date format, written as a grammar without reference to the scanning
code.
-/

namespace Argtable.Spec

/-- The members of `struct tm`. -/
inductive Fld where
  | sec | min | hour | mday | mon | year | wday | yday
deriving DecidableEq

/-- A member of a `struct tm`. -/
def _root_.Argtable.Tm.fld (t : Tm) : Fld → Int
  | .sec => t.sec
  | .min => t.min
  | .hour => t.hour
  | .mday => t.mday
  | .mon => t.mon
  | .year => t.year
  | .wday => t.wday
  | .yday => t.yday

/-- The members set by a conversion. -/
def writes (c : Char) : List Fld :=
  if c = 'c' then [.mon, .mday, .year, .hour, .min, .sec]
  else if c = 'D' ∨ c = 'x' then [.mon, .mday, .year]
  else if c = 'R' then [.hour, .min]
  else if c = 'r' ∨ c = 'T' ∨ c = 'X' then [.hour, .min, .sec]
  else if c = 'A' ∨ c = 'a' ∨ c = 'w' then [.wday]
  else if c = 'B' ∨ c = 'b' ∨ c = 'h' ∨ c = 'm' then [.mon]
  else if c = 'C' ∨ c = 'Y' ∨ c = 'y' then [.year]
  else if c = 'd' ∨ c = 'e' then [.mday]
  else if c = 'k' ∨ c = 'H' ∨ c = 'l' ∨ c = 'I' ∨ c = 'p' then [.hour]
  else if c = 'j' then [.yday]
  else if c = 'M' then [.min]
  else if c = 'S' then [.sec]
  else []

/-- The members set by a format. -/
def writesFmt : CStr → List Fld
  | [] => []
  | a :: fmt =>
    if a ≠ '%' then writesFmt fmt
    else match fmt with
      | [] => []
      | c :: fmt =>
        if c = 'E' ∨ c = 'O' then
          match fmt with
          | [] => []
          | c :: fmt => writes c ++ writesFmt fmt
        else writes c ++ writesFmt fmt

/-- The calendar ranges.  The year counts from 1900; a leap second or two is allowed. -/
def InRange : Fld → Int → Prop
  | .sec, v => 0 ≤ v ∧ v ≤ 61
  | .min, v => 0 ≤ v ∧ v ≤ 59
  | .hour, v => 0 ≤ v ∧ v ≤ 23
  | .mday, v => 1 ≤ v ∧ v ≤ 31
  | .mon, v => 0 ≤ v ∧ v ≤ 11
  | .year, v => -1900 ≤ v ∧ v ≤ 9999
  | .wday, v => 0 ≤ v ∧ v ≤ 6
  | .yday, v => 0 ≤ v ∧ v ≤ 365

/-- The text does not start with a character satisfying `p`. -/
def Stops (p : Char → Bool) (s : CStr) : Prop := ∀ c t, s = c :: t → p c = false

/-- `s` starts with the number `n`, between `lo` and `hi`, written with at most as many digits as `hi` has;
`s'` is the text after it.  The number does not stop before a digit that could belong to it. -/
def Number (lo hi : Nat) (s : CStr) (n : Nat) (s' : CStr) : Prop :=
  ∃ w, s = w ++ s' ∧ Numeral 10 w n ∧ lo ≤ n ∧ n ≤ hi ∧ w.length ≤ (Nat.toDigits 10 hi).length ∧
    (w.length = (Nat.toDigits 10 hi).length ∨ hi < n * 10 ∨ Stops isDigit s')

/-- `s'` is `s` without the white space at its beginning. -/
def SkipWhite (s s' : CStr) : Prop := ∃ w, s = w ++ s' ∧ White w ∧ Stops isSpace s'

/-- Equal up to the case of letters. -/
def SameText (a b : CStr) : Prop := a.map toLower = b.map toLower

/-- The days of the week. -/
def days : List CStr := [cs "Sunday", cs "Monday", cs "Tuesday", cs "Wednesday", cs "Thursday",
  cs "Friday", cs "Saturday"]

/-- The months. -/
def months : List CStr := [cs "January", cs "February", cs "March", cs "April", cs "May", cs "June",
  cs "July", cs "August", cs "September", cs "October", cs "November", cs "December"]

/-- `s` starts with the name number `i`, in full if possible, otherwise abbreviated to three letters; `s'` is
the text after it. -/
def Named (names : List CStr) (s : CStr) (i : Nat) (s' : CStr) : Prop :=
  ∃ name w, names[i]? = some name ∧ s = w ++ s' ∧
    (SameText w name ∨ SameText w (name.take 3) ∧ ¬ ∃ v t, s = v ++ t ∧ SameText v name)

/-- The conversions that read a number: the range of the number, and what it does to the date.  The mark
(`Bool`) says that a part of the year, `%C` or `%y`, has been read already. -/
inductive Assign : (c : Char) → (lo hi : Nat) → (n : Nat) → Tm → Bool → Tm → Bool → Prop
  | mday (c : Char) (n : Nat) (t : Tm) (k : Bool) : c = 'd' ∨ c = 'e' →
      Assign c 1 31 n t k { t with mday := n } k
  | hour24 (c : Char) (n : Nat) (t : Tm) (k : Bool) : c = 'H' ∨ c = 'k' →
      Assign c 0 23 n t k { t with hour := n } k
  | hour12 (c : Char) (n : Nat) (t : Tm) (k : Bool) : c = 'I' ∨ c = 'l' →
      Assign c 1 12 n t k { t with hour := (n % 12 : Nat) } k
  | yday (n : Nat) (t : Tm) (k : Bool) : Assign 'j' 1 366 n t k { t with yday := (n : Int) - 1 } k
  | min (n : Nat) (t : Tm) (k : Bool) : Assign 'M' 0 59 n t k { t with min := n } k
  | mon (n : Nat) (t : Tm) (k : Bool) : Assign 'm' 1 12 n t k { t with mon := (n : Int) - 1 } k
  | sec (n : Nat) (t : Tm) (k : Bool) : Assign 'S' 0 61 n t k { t with sec := n } k
  | week (c : Char) (n : Nat) (t : Tm) (k : Bool) : c = 'U' ∨ c = 'W' → Assign c 0 53 n t k t k
  | wday (n : Nat) (t : Tm) (k : Bool) : Assign 'w' 0 6 n t k { t with wday := n } k
  | year (n : Nat) (t : Tm) (k : Bool) : Assign 'Y' 0 9999 n t k { t with year := (n : Int) - 1900 } k
  | century (n : Nat) (t : Tm) : Assign 'C' 0 99 n t false { t with year := n * 100 } true
  | centuryAfter (n : Nat) (t : Tm) :
      Assign 'C' 0 99 n t true { t with year := t.year.tmod 100 + n * 100 } true
  | old (n : Nat) (t : Tm) : 69 ≤ n → Assign 'y' 0 99 n t false { t with year := n } true
  | new (n : Nat) (t : Tm) : n ≤ 68 → Assign 'y' 0 99 n t false { t with year := n + 100 } true
  | yearAfter (n : Nat) (t : Tm) :
      Assign 'y' 0 99 n t true { t with year := t.year.tdiv 100 * 100 + n } true

/-- The modifiers `E` and `O` are accepted (and ignored) with some conversions. -/
def ModOk (m : Option Char) (c : Char) : Prop :=
  m = none ∨ m = some 'E' ∧ c ∈ ['c', 'C', 'X', 'x', 'Y', 'y'] ∨
  m = some 'O' ∧ c ∈ ['d', 'e', 'H', 'I', 'M', 'm', 'S', 'U', 'W', 'w', 'y']

/-- The format starts with the conversion `c` with modifier `m`, followed by the format `fmt'`. -/
inductive Directive : (fmt : CStr) → (m : Option Char) → (c : Char) → (fmt' : CStr) → Prop
  | plain (c : Char) (f : CStr) : c ≠ 'E' → c ≠ 'O' → Directive ('%' :: c :: f) none c f
  | modified (m c : Char) (f : CStr) : m = 'E' ∨ m = 'O' → c ≠ 'E' → c ≠ 'O' →
      Directive ('%' :: m :: c :: f) (some m) c f

/-- A simple conversion: the text, the date and the mark before and after it. -/
inductive Item : (m : Option Char) → (c : Char) → CStr → Tm → Bool → CStr → Tm → Bool → Prop
  | percent (m : Option Char) (s : CStr) (t : Tm) (k : Bool) : Item m '%' ('%' :: s) t k s t k
  | number (m : Option Char) (c : Char) (lo hi n : Nat) (s s' : CStr) (t t' : Tm) (k k' : Bool) :
      ModOk m c → Number lo hi s n s' → Assign c lo hi n t k t' k' → Item m c s t k s' t' k'
  | weekday (c : Char) (i : Nat) (s s' : CStr) (t : Tm) (k : Bool) : c = 'A' ∨ c = 'a' →
      Named days s i s' → Item none c s t k s' { t with wday := i } k
  | month (c : Char) (i : Nat) (s s' : CStr) (t : Tm) (k : Bool) : c = 'B' ∨ c = 'b' ∨ c = 'h' →
      Named months s i s' → Item none c s t k s' { t with mon := i } k
  | am (s : CStr) (t : Tm) (k : Bool) : SameText s (cs "AM") → t.hour ≤ 11 → Item none 'p' s t k [] t k
  | pm (s : CStr) (t : Tm) (k : Bool) : SameText s (cs "PM") → t.hour ≤ 11 →
      Item none 'p' s t k [] { t with hour := t.hour + 12 } k
  | white (c : Char) (s s' : CStr) (t : Tm) (k : Bool) : c = 'n' ∨ c = 't' → SkipWhite s s' →
      Item none c s t k s' t k

/-- The conversions that stand for a format. -/
inductive Group : Char → CStr → Prop
  | c : Group 'c' (cs "%x %X")
  | D : Group 'D' (cs "%m/%d/%y")
  | R : Group 'R' (cs "%H:%M")
  | r : Group 'r' (cs "%I:%M:%S %p")
  | T : Group 'T' (cs "%H:%M:%S")
  | X : Group 'X' (cs "%H:%M:%S")
  | x : Group 'x' (cs "%m/%d/%y")

/-- The format `fmt` matches the beginning of the text `s`: the rest of the text, and the date and the mark
before and after. -/
inductive Reads : (fmt : CStr) → CStr → Tm → Bool → CStr → Tm → Bool → Prop
  | done (s : CStr) (t : Tm) (k : Bool) : Reads [] s t k s t k
  | white (a : Char) (fmt s s1 s' : CStr) (t t' : Tm) (k k' : Bool) : isSpace a = true → SkipWhite s s1 →
      Reads fmt s1 t k s' t' k' → Reads (a :: fmt) s t k s' t' k'
  | char (a : Char) (fmt s s' : CStr) (t t' : Tm) (k k' : Bool) : isSpace a = false → a ≠ '%' →
      Reads fmt s t k s' t' k' → Reads (a :: fmt) (a :: s) t k s' t' k'
  | item (fmt fmt' : CStr) (m : Option Char) (c : Char) (s s1 s' : CStr) (t t1 t' : Tm) (k k1 k' : Bool) :
      Directive fmt m c fmt' → Item m c s t k s1 t1 k1 → Reads fmt' s1 t1 k1 s' t' k' →
      Reads fmt s t k s' t' k'
  | group (fmt fmt' g : CStr) (m : Option Char) (c : Char) (s s1 s' : CStr) (t t1 t' : Tm)
      (k k1 k' : Bool) : Directive fmt m c fmt' → ModOk m c → Group c g → Reads g s t false s1 t1 k1 →
      Reads fmt' s1 t1 k s' t' k' → Reads fmt s t k s' t' k'

/-- The text `s` matches the format, as a whole, and turns the date `t` into `t'`. -/
def Matches (fmt s : CStr) (t t' : Tm) : Prop := ∃ k, Reads fmt s t false [] t' k

/-- `w` is the number `n`, written with `k` digits (with leading zeros). -/
def Padded (k : Nat) (w : CStr) (n : Int) : Prop := ∃ m : Nat, n = m ∧ Numeral 10 w m ∧ w.length = k

/-- How a member of a date is written by a conversion.  The two-digit year is only used for the years
1969 to 2068. -/
inductive Shown : Char → Tm → CStr → Prop
  | percent (t : Tm) : Shown '%' t ['%']
  | mday (c : Char) (t : Tm) (w : CStr) : c = 'd' ∨ c = 'e' → InRange .mday t.mday → Padded 2 w t.mday →
      Shown c t w
  | hour (c : Char) (t : Tm) (w : CStr) : c = 'H' ∨ c = 'k' → InRange .hour t.hour → Padded 2 w t.hour →
      Shown c t w
  | min (t : Tm) (w : CStr) : InRange .min t.min → Padded 2 w t.min → Shown 'M' t w
  | sec (t : Tm) (w : CStr) : InRange .sec t.sec → Padded 2 w t.sec → Shown 'S' t w
  | mon (t : Tm) (w : CStr) : InRange .mon t.mon → Padded 2 w (t.mon + 1) → Shown 'm' t w
  | yday (t : Tm) (w : CStr) : InRange .yday t.yday → Padded 3 w (t.yday + 1) → Shown 'j' t w
  | wday (t : Tm) (w : CStr) : InRange .wday t.wday → Padded 1 w t.wday → Shown 'w' t w
  | year (t : Tm) (w : CStr) : -1900 ≤ t.year → t.year ≤ 8099 → Padded 4 w (t.year + 1900) → Shown 'Y' t w
  | yy (t : Tm) (w : CStr) : 69 ≤ t.year → t.year ≤ 168 → Padded 2 w (t.year % 100) → Shown 'y' t w
  | day (t : Tm) (i : Nat) (w : CStr) : t.wday = i → days[i]? = some w → Shown 'A' t w
  | month (t : Tm) (i : Nat) (w : CStr) : t.mon = i → months[i]? = some w → Shown 'B' t w

/-- The text `s` shows the date `t` in the format `fmt`, with any amount of white space where the format has
some. -/
inductive Renders : (fmt : CStr) → Tm → CStr → Prop
  | done (t : Tm) : Renders [] t []
  | white (a : Char) (fmt w s : CStr) (t : Tm) : isSpace a = true → White w → s ≠ [] → Stops isSpace s →
      Renders fmt t s → Renders (a :: fmt) t (w ++ s)
  | char (a : Char) (fmt s : CStr) (t : Tm) : isSpace a = false → a ≠ '%' → Renders fmt t s →
      Renders (a :: fmt) t (a :: s)
  | item (fmt fmt' : CStr) (m : Option Char) (c : Char) (w s : CStr) (t : Tm) : Directive fmt m c fmt' →
      ModOk m c → Shown c t w → Renders fmt' t s → Renders fmt t (w ++ s)
  | group (fmt fmt' g : CStr) (m : Option Char) (c : Char) (w s : CStr) (t : Tm) : Directive fmt m c fmt' →
      ModOk m c → Group c g → Renders g t w → Renders fmt' t s → Renders fmt t (w ++ s)

/-- `h` is an `arg_date` entry with the format `fmt` in any state: it was made by the constructor, and `o` is
its current content. -/
inductive DateEntry {δ : Type} (lc : Libc δ) : (fmt : CStr) → Hdr (Obj δ) → DateObj → Prop
  | mk (so lo fm dt : Option CStr) (mn mx : Int) (gl : Option CStr) (h : Hdr (Obj δ)) (ov : Bool)
      (o : DateObj) : argDaten lc so lo fm dt mn mx gl = .ok h →
      (o.count : Int) ≤ h.maxcount → (o.tmval.length : Int) = h.maxcount →
      DateEntry lc (fm.getD (cs "%x")) { h with hasOptValue := ov, parent := .date o } o

end Argtable.Spec
