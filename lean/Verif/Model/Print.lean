import Verif.Model.Table
/-!
# Rendering options, syntax lines and glossaries (argtable3.c:482-1021)

The functions `arg_print_..._ds` append to an `arg_dstr`; here they return the appended text.  The
fixed-size buffer `char syntax[200]` is modelled as a list of 200 bytes with bounds-checked writes.
-/

namespace Argtable

/-- A byte buffer together with `dest` (an index) and `ndest` of `arg_cat`. -/
structure CatBuf where
  buf : List Char
  dest : Nat
  ndest : Nat
deriving DecidableEq, Repr

/-- Writing one byte.  (the stores of argtable3.c:502-637.) -/
def bufWrite (buf : List Char) (i : Nat) (c : Char) : M (List Char) :=
  if i < buf.length then .ok (buf.set i c) else .error (.ub "write outside the buffer")

/-- Reading one byte.  (argtable3.c:502-520.) -/
def bufRead (buf : List Char) (i : Nat) : M Char :=
  match buf[i]? with
  | some c => .ok c
  | none => .error (.ub "read outside the buffer")

/-- First loop of `arg_cat`, argtable3.c:507-508; `k` is `end - 1 - dest`. -/
def catSeek (buf : List Char) : (k : Nat) → (dest : Nat) → M Nat
  | 0, dest => .ok dest
  | k + 1, dest => do
    let c ← bufRead buf dest
    if c ≠ '\x00' then catSeek buf k (dest + 1) else .ok dest

/-- Second loop of `arg_cat`, argtable3.c:511-512; `last` is `end - 1`. -/
def catCopy (last : Nat) : (src : CStr) → (buf : List Char) → (dest : Nat) → M (List Char × Nat)
  | [], buf, dest => .ok (buf, dest)
  | c :: src, buf, dest =>
    if dest < last then do
      let buf ← bufWrite buf dest c
      catCopy last src buf (dest + 1)
    else .ok (buf, dest)

/-- `arg_cat`, argtable3.c:502-520. -/
def argCat (b : CatBuf) (src : CStr) : M CatBuf := do
  let e := b.dest + b.ndest
  let dest ← catSeek b.buf (e - 1 - b.dest) b.dest
  let (buf, dest) ← catCopy (e - 1) src b.buf dest
  let buf ← bufWrite buf dest '\x00'
  .ok { buf := buf, dest := dest, ndest := e - dest }

/-- The C library's `strlen` on the buffer from index `i`, `k` bytes remaining.  (argtable3.c:502-637.) -/
def bufEnd (buf : List Char) : (k : Nat) → (i : Nat) → M Nat
  | 0, _ => .error (.ub "strlen: no terminating NUL")
  | k + 1, i => do
    let c ← bufRead buf i
    if c = '\x00' then .ok i else bufEnd buf k (i + 1)

/-- Copying bytes to the buffer from index `i` on and adding the NUL.
(`strncpy` and `snprintf` in argtable3.c:522-637.) -/
def bufPuts : (src : CStr) → (buf : List Char) → (i : Nat) → M (List Char)
  | [], buf, i => bufWrite buf i '\x00'
  | c :: src, buf, i => do
    let buf ← bufWrite buf i c
    bufPuts src buf (i + 1)

/-- `strncat(dest, src, n)` (argtable3.c:551, 617). -/
def strncat (b : CatBuf) (src : CStr) (n : Nat) : M CatBuf := do
  let i ← bufEnd b.buf (b.buf.length - b.dest) b.dest
  let buf ← bufPuts (src.take n) b.buf i
  .ok { b with buf := buf }

/-- `strcspn(s, ",")`.  (argtable3.c:549 and 609.) -/
def commaSpan (s : CStr) : Nat := (s.takeWhile (· != ',')).length

/-- Appending the data type, in brackets for an optional value, argtable3.c:535-541, 556-562,
566-571, 631-636. -/
def catDatatype (b : CatBuf) (datatype : CStr) (optvalue : Bool) : M CatBuf :=
  if optvalue then do
    let b ← argCat b (cs "[")
    let b ← argCat b datatype
    argCat b (cs "]")
  else argCat b datatype

/-- `arg_cat_option`, argtable3.c:522-573.  For an empty `shortopts`, `option[1]` is NUL. -/
def catOption (b : CatBuf) (shortopts longopts datatype : Option CStr) (optvalue : Bool) : M CatBuf :=
  match shortopts with
  | some so => do
    let b ← argCat b ('-' :: so.take 1)
    match datatype with
    | some d => do
      let b ← argCat b (cs " ")
      catDatatype b d optvalue
    | none => .ok b
  | none =>
    match longopts with
    | some lo => do
      let b ← argCat b (cs "--")
      let n := commaSpan lo
      let b ← strncat b lo (if n < b.ndest then n else b.ndest)
      match datatype with
      | some d => do
        let b ← argCat b (cs "=")
        catDatatype b d optvalue
      | none => .ok b
    | none =>
      match datatype with
      | some d => catDatatype b d optvalue
      | none => .ok b

/-- The loop over the short options in `arg_cat_optionv`, argtable3.c:579-594. -/
def catShorts (separator : CStr) : CStr → CatBuf → M CatBuf
  | [], b => .ok b
  | c :: rest, b => do
    let b ← argCat b ['-', c]
    let b ← if rest ≠ [] then argCat b separator else .ok b
    catShorts separator rest b

/-- The loop over the long options in `arg_cat_optionv`, argtable3.c:601-623. -/
def catLongs (separator : CStr) (c : CStr) (b : CatBuf) : M CatBuf :=
  if h : c = [] then .ok b
  else do
    let b ← argCat b (cs "--")
    let n := commaSpan c
    let b ← strncat b c (if n < b.ndest then n else b.ndest)
    match hc : c.drop n with
    | ',' :: rest => do
      let b ← argCat b separator
      catLongs separator rest b
    | _ => .ok b
termination_by c.length
decreasing_by
  have h1 : (c.drop (commaSpan c)).length ≤ c.length := by simp
  rw [hc] at h1
  simp at h1; omega

/-- `arg_cat_optionv`, argtable3.c:575-638. -/
def catOptionv (b : CatBuf) (shortopts longopts datatype : Option CStr) (optvalue : Bool)
    (separator : CStr) : M CatBuf := do
  let b ← match shortopts with
    | some so => catShorts separator so b
    | none => .ok b
  let b ← if shortopts.isSome ∧ longopts.isSome then argCat b separator else .ok b
  let b ← match longopts with
    | some lo => catLongs separator lo b
    | none => .ok b
  match datatype with
  | some d => do
    let b ← if longopts.isSome then argCat b (cs "=")
      else if shortopts.isSome then argCat b (cs " ") else .ok b
    catDatatype b d optvalue
  | none => .ok b

/-- The C string in a buffer.  (as passed to `arg_dstr_cat`, argtable3.c:640-650.) -/
def bufStr (buf : List Char) : CStr := buf.takeWhile (· != '\x00')

/-- `char syntax[200] = ""` with `dest = syntax`, `ndest = sizeof(syntax) - 1`.
(argtable3.c:840-850 and 989-1020.) -/
def syntaxBuf (init : CStr) : CatBuf :=
  { buf := init ++ List.replicate (200 - init.length) '\x00', dest := 0, ndest := 199 }

/-- `arg_print_option_ds`, argtable3.c:640-649; `suffix` is not NULL. -/
def printOption (shortopts longopts datatype : Option CStr) (suffix : CStr) : M CStr := do
  let b ← catOptionv (syntaxBuf []) shortopts longopts datatype false (cs "|")
  .ok (bufStr b.buf ++ suffix)

variable {σ : Type}

/-- `arg_dstr_catf(ds, format, c)` with a format ending in `%c`: a NUL character (from an empty
`shortopts`) ends the formatted string. -/
def shortHead (h : Hdr σ) : CStr := (h.shortopts.getD []).take 1

/-- The two loops of `arg_print_gnuswitch_ds`, argtable3.c:671-708, over the entries selected by `p`:
`first` is the format prefix for the first entry printed. -/
def gnuswitchLoop (p : Hdr σ → Bool) : List (Hdr σ) → (first : CStr) → CStr × Bool
  | [], _ => ([], false)
  | h :: t, first =>
    if p h then
      let (r, _) := gnuswitchLoop p t []
      (first ++ shortHead h ++ r, true)
    else gnuswitchLoop p t first

/-- A switch: an entry with short options and without `ARG_HASVALUE`.  (argtable3.c:664-705 and 726.) -/
def isSwitch (h : Hdr σ) : Bool := h.shortopts.isSome && !h.hasValue

/-- `arg_print_gnuswitch_ds`, argtable3.c:664-711. -/
def printGnuswitch (es : List (Hdr σ)) : CStr :=
  let (t1, any1) := gnuswitchLoop (fun h => !(h.mincount < 1) && isSwitch h) es (cs " -")
  let (t2, any2) := gnuswitchLoop (fun h => !(h.mincount > 0) && isSwitch h) es
    (if any1 then cs "[" else cs " [-")
  t1 ++ t2 ++ (if any2 then cs "]" else [])

/-- The text of the mandatory and optional instances, argtable3.c:735-763 and 794-821. -/
def instances (syn : CStr) (mincount maxcount : Int) : CStr :=
  (List.replicate mincount.toNat (' ' :: syn)).flatten ++
  (if maxcount - mincount = 0 then []
   else if maxcount - mincount = 1 then cs " [" ++ syn ++ cs "]"
   else if maxcount - mincount = 2 then cs " [" ++ syn ++ cs "]" ++ cs " [" ++ syn ++ cs "]"
   else cs " [" ++ syn ++ cs "]...")

/-- The loop of `arg_print_syntax_ds`, argtable3.c:721-765. -/
def syntaxLoop : List (Hdr σ) → M CStr
  | [] => .ok []
  | h :: t => do
    if isSwitch h then syntaxLoop t
    else
      let b ← catOption (syntaxBuf []) h.shortopts h.longopts h.datatype h.hasOptValue
      let syn := bufStr b.buf
      let r ← syntaxLoop t
      .ok ((if syn.length > 0 then instances syn h.mincount h.maxcount else []) ++ r)

/-- `arg_print_syntax_ds`, argtable3.c:713-770. -/
def printSyntax (es : List (Hdr σ)) (suffix : Option CStr) : M CStr := do
  let body ← syntaxLoop es
  .ok (printGnuswitch es ++ body ++ suffix.getD [])

/-- The loop of `arg_print_syntaxv_ds`, argtable3.c:784-822. -/
def syntaxvLoop : List (Hdr σ) → M CStr
  | [] => .ok []
  | h :: t => do
    let b ← catOptionv (syntaxBuf []) h.shortopts h.longopts h.datatype h.hasOptValue (cs "|")
    let r ← syntaxvLoop t
    .ok (instances (bufStr b.buf) h.mincount h.maxcount ++ r)

/-- `arg_print_syntaxv_ds`, argtable3.c:779-827. -/
def printSyntaxv (es : List (Hdr σ)) (suffix : Option CStr) : M CStr := do
  let body ← syntaxvLoop es
  .ok (body ++ suffix.getD [])

/-- `arg_print_glossary_ds`, argtable3.c:836-852.  `fmt2` is the effect of the `printf` format with the
two string arguments (default `"  %-20s %s\n"`). -/
def printGlossary (fmt2 : CStr → CStr → CStr) : List (Hdr σ) → M CStr
  | [] => .ok []
  | h :: t =>
    match h.glossary with
    | none => printGlossary fmt2 t
    | some g => do
      let b ← catOptionv (syntaxBuf []) h.shortopts h.longopts h.datatype h.hasOptValue (cs ", ")
      let r ← printGlossary fmt2 t
      .ok (fmt2 (bufStr b.buf) g ++ r)

/-- `printf`'s `%-<width>s`.  (argtable3.c:840, 1011 and 1015.) -/
def padRight (width : Nat) (s : CStr) : CStr := s ++ List.replicate (width - s.length) ' '

/-- The default glossary format, argtable3.c:840. -/
def defaultGlossary (syn g : CStr) : CStr := cs "  " ++ padRight 20 syn ++ cs " " ++ g ++ cs "\n"

/-! ### Word wrapping

Indices are `unsigned int`; `strlen(text) < UINT_MAX` is asserted by the code.  The only arithmetic
that can wrap is `(rmargin - lmargin) + 1` and `line_start + colwidth`, computed modulo 2^32. -/

/-- Reduction to `unsigned int`, argtable3.c:869-900. -/
def wrap32 (n : Nat) : Nat := n % 4294967296

/-- `*(text + i)`, NUL at the end; reading further is a fault.  (argtable3.c:886-930.) -/
def charAt (text : CStr) (i : Nat) : M Char :=
  if i < text.length then .ok (text.getD i '\x00')
  else if i = text.length then .ok '\x00'
  else .error (.ub "read past the end of the text")

/-- Skipping leading white space except newlines, argtable3.c:886-888; `k` bounds the number of steps. -/
def fmtSkip (text : CStr) : (k : Nat) → (i : Nat) → M Nat
  | 0, _ => .error .fuel
  | k + 1, i => do
    let c ← charAt text i
    if isSpace c ∧ c ≠ '\n' then fmtSkip text k (i + 1) else .ok i

/-- Searching backwards for white space, argtable3.c:894-896. -/
def fmtBack (text : CStr) (start : Nat) : (e : Nat) → M Nat
  | 0 => .ok 0
  | e + 1 =>
    if e + 1 > start then do
      let c ← charAt text (e + 1)
      if ¬ isSpace c then fmtBack text start e else .ok (e + 1)
    else .ok (e + 1)

/-- Dropping trailing spaces, argtable3.c:904-906 (the newline test looks at `line_start`). -/
def fmtTrail (text : CStr) (start : Nat) : (e : Nat) → M Nat
  | 0 => .ok 0
  | e + 1 =>
    if e + 1 > start then do
      let c ← charAt text (e + 1)
      let d ← charAt text start
      if isSpace c ∧ d ≠ '\n' then fmtTrail text start e else .ok (e + 1)
    else .ok (e + 1)

/-- Printing one line, argtable3.c:914-925: the text and the new `line_start`; `k` is
`line_end - line_start`. -/
def fmtLine (text : CStr) : (k : Nat) → (i : Nat) → M (CStr × Nat)
  | 0, i => .ok ([], i)
  | k + 1, i => do
    let c ← charAt text i
    if c = '\n' then .ok ([], i + 1)
    else do
      let (r, j) ← fmtLine text k (i + 1)
      .ok (c :: r, j)

/-- `line_end` for a line starting at `i`, argtable3.c:891-911. -/
def fmtEnd (text : CStr) (colwidth : Nat) (i e : Nat) : M Nat :=
  if wrap32 (e + 4294967296 - i) > colwidth then do
    let e0 := wrap32 (i + colwidth)
    let e1 ← fmtBack text i e0
    if e1 = i then .ok e0
    else do
      let e2 ← fmtTrail text i e1
      .ok (e2 + 1)
  else .ok e

/-- The main loop of `arg_print_formatted_ds`, argtable3.c:882-938. -/
def fmtLoop (text : CStr) (lmargin colwidth : Nat) : (fuel : Nat) → (i e : Nat) → M CStr
  | 0, _, _ => .error .fuel
  | fuel + 1, i, e =>
    if e > i then do
      let i ← fmtSkip text (text.length + 1) i
      let e ← fmtEnd text colwidth i e
      let (line, i) ← fmtLine text (e - i) i
      let (ind, e) := if e < text.length then (List.replicate lmargin ' ', text.length) else ([], e)
      let r ← fmtLoop text lmargin colwidth fuel i e
      .ok (line ++ '\n' :: (ind ++ r))
    else .ok []

/-- `arg_print_formatted_ds`, argtable3.c:869-939. -/
def printFormatted (fuel : Nat) (lmargin rmargin : Nat) (text : CStr) : M CStr :=
  fmtLoop text lmargin (wrap32 (rmargin + 4294967296 - lmargin + 1)) fuel 0 text.length

/-- One entry of `arg_print_glossary_gnu_ds`, argtable3.c:994-1017. -/
def gnuEntry (fuel : Nat) (h : Hdr σ) (g : CStr) : M CStr := do
  let init := if h.shortopts.isNone ∧ h.longopts.isSome then cs "    " else []
  let b ← catOptionv (syntaxBuf init) h.shortopts h.longopts h.datatype h.hasOptValue (cs ", ")
  let syn := bufStr b.buf
  let (head, syn) := if syn.length > 25
    then (cs "  " ++ padRight 25 syn ++ cs " " ++ cs "\n", []) else ([], syn)
  let body ← printFormatted fuel 28 79 g
  .ok (head ++ cs "  " ++ padRight 25 syn ++ cs " " ++ body)

/-- The loop of `arg_print_glossary_gnu_ds`, argtable3.c:993-1018. -/
def gnuLoop (fuel : Nat) : List (Hdr σ) → M CStr
  | [] => .ok []
  | h :: t =>
    match h.glossary with
    | none => gnuLoop fuel t
    | some g => do
      let e ← gnuEntry fuel h g
      let r ← gnuLoop fuel t
      .ok (e ++ r)

/-- `arg_print_glossary_gnu_ds`, argtable3.c:989-1021. -/
def printGlossaryGnu (fuel : Nat) (es : List (Hdr σ)) : M CStr := do
  let r ← gnuLoop fuel es
  .ok (r ++ cs "\n")

end Argtable
