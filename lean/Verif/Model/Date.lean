import Verif.Model.Values
/-!
# arg_date and `arg_strptime` (arg_date.c)
-/

namespace Argtable

/-- `struct tm` (the fields used by argtable3).  (the fields written in arg_date.c:251-548.) -/
structure Tm where
  sec : Int := 0
  min : Int := 0
  hour : Int := 0
  mday : Int := 0
  mon : Int := 0
  year : Int := 0
  wday : Int := 0
  yday : Int := 0
deriving DecidableEq, Repr

/-- `day`, arg_date.c:214. -/
def dayNames : List CStr := [cs "Sunday", cs "Monday", cs "Tuesday", cs "Wednesday", cs "Thursday",
  cs "Friday", cs "Saturday"]
/-- `abday`, arg_date.c:216. -/
def abdayNames : List CStr := [cs "Sun", cs "Mon", cs "Tue", cs "Wed", cs "Thu", cs "Fri", cs "Sat"]
/-- `mon`, arg_date.c:218-219. -/
def monNames : List CStr := [cs "January", cs "February", cs "March", cs "April", cs "May", cs "June",
  cs "July", cs "August", cs "September", cs "October", cs "November", cs "December"]
/-- `abmon`, arg_date.c:221. -/
def abmonNames : List CStr := [cs "Jan", cs "Feb", cs "Mar", cs "Apr", cs "May", cs "Jun", cs "Jul",
  cs "Aug", cs "Sep", cs "Oct", cs "Nov", cs "Dec"]

/-- `arg_strcasecmp(s1, s2) == 0`, arg_date.c:225-233. -/
def strcasecmpEq : (s1 s2 : CStr) → Bool
  | [], [] => true
  | a :: s, b :: t => if toLower a = toLower b then strcasecmpEq s t else false
  | _, _ => false

/-- `arg_strncasecmp(s1, s2, n) == 0`, arg_date.c:235-249. -/
def strncasecmpEq : (s1 s2 : CStr) → (n : Nat) → Bool
  | _, _, 0 => true
  | [], [], _ + 1 => true
  | a :: s, b :: t, n + 1 => if toLower a = toLower b then strncasecmpEq s t n else false
  | _, _, _ + 1 => false

/-- The loop of `conv_num`, arg_date.c:559-563, after at least one iteration: `result`, `rulim` and
the rest of the buffer; the digit test is part of the loop condition.  The recursion is on the
buffer. -/
def convLoop (ulim : Nat) : (result rulim : Nat) → (buf : CStr) → Nat × CStr
  | result, _, [] => (result, [])
  | result, rulim, c :: buf =>
    if result * 10 ≤ ulim ∧ rulim ≠ 0 ∧ isDigit c then
      convLoop ulim (result * 10 + (c.toNat - 48)) (rulim / 10) buf
    else (result, c :: buf)

/-- `conv_num`, arg_date.c:550-570: the number and the rest of the buffer. -/
def convNum (buf : CStr) (llim ulim : Nat) : Option (Nat × CStr) :=
  match buf with
  | [] => none
  | c :: buf =>
    if ¬ isDigit c then none
    else
      let (result, rest) := convLoop ulim (c.toNat - 48) (ulim / 10) buf
      if result < llim ∨ result > ulim then none else some (result, rest)

/-- The search loop for day and month names, arg_date.c:355-364 and 379-388, from index `i` on: the
index found and the length matched. -/
def findName (bp : CStr) : (full abbr : List CStr) → (i : Nat) → Option (Nat × Nat)
  | f :: full, a :: abbr, i =>
    if strncasecmpEq f bp f.length then some (i, f.length)
    else if strncasecmpEq a bp a.length then some (i, a.length)
    else findName bp full abbr (i + 1)
  | _, _, _ => none

/-- Local state of `arg_strptime`: the position in the input, the result so far, `split_year`. -/
structure PState where
  bp : CStr
  tm : Tm
  split : Bool
deriving DecidableEq, Repr

/-- One conversion `%…c` of `arg_strptime`, arg_date.c:276-543, with the modifiers `altE`, `altO`;
`sub` is the recursive call for the "complex" conversions.  `none` is `return 0`.
(`LEGAL_ALT(x)` fails if a modifier outside `x` was given.) -/
def convSpec (sub : CStr → CStr → Tm → Option (CStr × Tm)) (altE altO : Bool) (c : Char)
    (s : PState) : Option PState :=
  let nested (allowE : Bool) (fmt : CStr) : Option PState :=
    if altO ∨ (altE ∧ ¬ allowE) then none
    else (sub s.bp fmt s.tm).map fun (bp, tm) => { s with bp := bp, tm := tm }
  let num (allowE allowO : Bool) (lo hi : Nat) (set : Nat → PState → PState) : Option PState :=
    if (altE ∧ ¬ allowE) ∨ (altO ∧ ¬ allowO) then none
    else (convNum s.bp lo hi).map fun (n, bp) => set n { s with bp := bp }
  let plain : Bool := ¬ altE ∧ ¬ altO
  if c = '%' then
    match s.bp with
    | d :: bp => if d = '%' then some { s with bp := bp } else none
    | [] => none
  else if c = 'c' then nested true (cs "%x %X")
  else if c = 'D' then nested false (cs "%m/%d/%y")
  else if c = 'R' then nested false (cs "%H:%M")
  else if c = 'r' then nested false (cs "%I:%M:%S %p")
  else if c = 'T' then nested false (cs "%H:%M:%S")
  else if c = 'X' then nested true (cs "%H:%M:%S")
  else if c = 'x' then nested true (cs "%m/%d/%y")
  else if c = 'A' ∨ c = 'a' then
    if ¬ plain then none
    else (findName s.bp dayNames abdayNames 0).map fun (i, len) =>
      { s with bp := s.bp.drop len, tm := { s.tm with wday := i } }
  else if c = 'B' ∨ c = 'b' ∨ c = 'h' then
    if ¬ plain then none
    else (findName s.bp monNames abmonNames 0).map fun (i, len) =>
      { s with bp := s.bp.drop len, tm := { s.tm with mon := i } }
  else if c = 'C' then num true false 0 99 fun i s =>
    if s.split then { s with tm := { s.tm with year := s.tm.year.tmod 100 + i * 100 } }
    else { s with tm := { s.tm with year := i * 100 }, split := true }
  else if c = 'd' ∨ c = 'e' then num false true 1 31 fun i s =>
    { s with tm := { s.tm with mday := i } }
  else if c = 'k' then num false false 0 23 fun i s => { s with tm := { s.tm with hour := i } }
  else if c = 'H' then num false true 0 23 fun i s => { s with tm := { s.tm with hour := i } }
  else if c = 'l' then num false false 1 12 fun i s =>
    { s with tm := { s.tm with hour := if i = 12 then 0 else i } }
  else if c = 'I' then num false true 1 12 fun i s =>
    { s with tm := { s.tm with hour := if i = 12 then 0 else i } }
  else if c = 'j' then num false false 1 366 fun i s =>
    { s with tm := { s.tm with yday := (i : Int) - 1 } }
  else if c = 'M' then num false true 0 59 fun i s => { s with tm := { s.tm with min := i } }
  else if c = 'm' then num false true 1 12 fun i s =>
    { s with tm := { s.tm with mon := (i : Int) - 1 } }
  else if c = 'p' then
    if ¬ plain then none
    else if strcasecmpEq (cs "AM") s.bp then
      if s.tm.hour > 11 then none else some { s with bp := s.bp.drop 2 }
    else if strcasecmpEq (cs "PM") s.bp then
      if s.tm.hour > 11 then none
      else some { s with bp := s.bp.drop 2, tm := { s.tm with hour := s.tm.hour + 12 } }
    else none
  else if c = 'S' then num false true 0 61 fun i s => { s with tm := { s.tm with sec := i } }
  else if c = 'U' ∨ c = 'W' then num false true 0 53 fun _ s => s
  else if c = 'w' then num false true 0 6 fun i s => { s with tm := { s.tm with wday := i } }
  else if c = 'Y' then num true false 0 9999 fun i s =>
    { s with tm := { s.tm with year := (i : Int) - 1900 } }
  else if c = 'y' then num true true 0 99 fun i s =>
    if s.split then { s with tm := { s.tm with year := s.tm.year.tdiv 100 * 100 + i } }
    else if i ≤ 68 then { s with tm := { s.tm with year := (i : Int) + 2000 - 1900 }, split := true }
    else { s with tm := { s.tm with year := (i : Int) + 1900 - 1900 }, split := true }
  else if c = 'n' ∨ c = 't' then
    if ¬ plain then none else some { s with bp := s.bp.dropWhile isSpace }
  else none

/-- The main loop of `arg_strptime`, arg_date.c:259-544.  `E` and `O` set a modifier and start over
(`goto again`, arg_date.c:287-295); a modifier is only accepted if none is set yet. -/
def strptimeLoop (sub : CStr → CStr → Tm → Option (CStr × Tm)) : (fmt : CStr) → PState →
    Option PState
  | [], s => some s
  | c :: fmt, s =>
    if isSpace c then strptimeLoop sub fmt { s with bp := s.bp.dropWhile isSpace }
    else if c ≠ '%' then
      match s.bp with
      | d :: bp => if c = d then strptimeLoop sub fmt { s with bp := bp } else none
      | [] => none
    else
      match fmt with
      | [] => none
      | 'E' :: fmt =>
        match fmt with
        | [] => none
        | c :: fmt =>
          if c = 'E' ∨ c = 'O' then none
          else (convSpec sub true false c s).bind (strptimeLoop sub fmt)
      | 'O' :: fmt =>
        match fmt with
        | [] => none
        | c :: fmt =>
          if c = 'E' ∨ c = 'O' then none
          else (convSpec sub false true c s).bind (strptimeLoop sub fmt)
      | c :: fmt => (convSpec sub false false c s).bind (strptimeLoop sub fmt)

/-- `arg_strptime` given its recursive call. -/
def strptimeWith (sub : CStr → CStr → Tm → Option (CStr × Tm)) (buf fmt : CStr) (tm : Tm) :
    Option (CStr × Tm) :=
  (strptimeLoop sub fmt ⟨buf, tm, false⟩).map fun s => (s.bp, s.tm)

/-- `arg_strptime`, arg_date.c:251-548: the rest of the input and the new `*tm`, or NULL.  The
recursion is at most two deep: `%c` calls with "%x %X", which call with "%m/%d/%y" and "%H:%M:%S". -/
def strptime : CStr → CStr → Tm → Option (CStr × Tm) :=
  strptimeWith (strptimeWith (strptimeWith fun _ _ _ => none))

/-- The value part of `struct arg_date`, argtable3.h:186-191. -/
structure DateObj where
  count : Nat
  tmval : List Tm
deriving DecidableEq, Repr

/-- `arg_date_scanfn`, arg_date.c:49-71. -/
def dateScan (format : CStr) (maxcount : Int) (o : DateObj) (argval : Option CStr) :
    M (DateObj × Int) :=
  if (o.count : Int) = maxcount then .ok (o, ARG_ERR_MAXCOUNT)
  else match argval with
    | none => .ok ({ o with count := o.count + 1 }, 0)
    | some a =>
      match o.tmval[o.count]? with
      | none => .error (.ub "array index out of range")
      | some tm =>
        match strptime a format tm with
        | some ([], tm) => do
          let tmval ← storeAt o.tmval o.count tm
          .ok ({ count := o.count + 1, tmval := tmval }, 0)
        | _ => .ok (o, ARG_ERR_BADDATE)

end Argtable
