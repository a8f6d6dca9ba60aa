import Verif.Model.Rex
import Verif.Model.Date
import Verif.Model.Print
/-!
# The functions of `<ctype.h>`, with their precondition

`isspace`, `toupper` and the like are undefined unless their argument is EOF or a value of `unsigned char` (C11 7.4).  The library passes
plain `char` values, which are negative for bytes from 128 on where `char` is signed.  Here the functions that do so once more, with
these calls as calls that may be undefined.  (`arg_strcasecmp` and `arg_strncasecmp`, arg_date.c:225-248, convert to `unsigned char`
first and stay as they are; so does `strtol`, which is the C library's.)
-/

namespace Argtable

/-- The values that may be passed: EOF (-1) and those of `unsigned char`.  (C11 7.4p1.) -/
def ctypeOk (i : Int) : Bool := i == -1 || (0 ≤ i && i ≤ 255)

/-- A call with the value `i` whose result is `r`.
(the calls are those of arg_int.c:64-132, arg_date.c:228-537, arg_rex.c:422-891 and argtable3.c:886-904.) -/
def ctInt {α : Type} (i : Int) (r : α) : M α :=
  if ctypeOk i then .ok r else .error (.ub "ctype: argument is neither EOF nor an unsigned char")

/-- A call with a `char`.  (`(int)(*p)` as in arg_int.c:64; `char` is signed.) -/
def ct {α : Type} (c : Char) (r : α) : M α := ctInt (charInt c) r

/-- `while (isspace((int)(*p))) p++;`  (arg_int.c:64-65 and 132-133, arg_date.c:265-266 and 537-538.) -/
def skipSpaceCt : CStr → M CStr
  | [] => .ok []
  | c :: s => do
    let b ← ct c (isSpace c)
    if b then skipSpaceCt s else .ok (c :: s)

/-! ## arg_int.c -/

/-- `strtol0X`, arg_int.c:58-108. -/
def strtol0XCt (str : CStr) (X : Char) (base : Nat) : M (Int × CStr) := do
  let ptr ← skipSpaceCt str
  let (s, ptr) := scanSign ptr
  match ptr with
  | '0' :: x :: ptr => do
    let u ← ct x (toUpper x)
    if u ≠ toUpper X then .ok (0, str)
    else
      let (val, e) := strtol ptr base
      if e = ptr then .ok (0, str)
      else if s * val > LONG_MAX then .error (.ub "strtol0X: signed overflow in s * val")
      else .ok (s * val, e)
  | _ => .ok (0, str)

/-- `detectsuffix`, arg_int.c:112-137: `toupper(*str)` is called for the character that does not match, too. -/
def detectsuffixCt : (str suffix : CStr) → M Bool
  | [], [] => .ok true
  | c :: str, d :: suffix => do
    let u ← ct c (toUpper c)
    if u = toUpper d then detectsuffixCt str suffix else .ok false
  | [], _ :: _ => .ok false
  | c :: str, [] => do
    let _ ← ct c (toUpper c)
    let r ← skipSpaceCt (c :: str)
    .ok (r = [])

/-- arg_int.c:154-173. -/
def intConvertCt (argval : CStr) : M (Option (Int × CStr)) := do
  let (val, e) ← strtol0XCt argval 'X' 16
  if e ≠ argval then .ok (some (val, e))
  else
    let (val, e) ← strtol0XCt argval 'O' 8
    if e ≠ argval then .ok (some (val, e))
    else
      let (val, e) ← strtol0XCt argval 'B' 2
      if e ≠ argval then .ok (some (val, e))
      else
        let (val, e) := strtol argval 10
        if e ≠ argval then .ok (some (val, e)) else .ok none

/-- arg_int.c:177-201. -/
def intSuffixCt (val : Int) (e : CStr) : M (Int × Int) := do
  let err : Int := if val > INT_MAX ∨ val < INT_MIN then ARG_ERR_OVERFLOW else 0
  if ← detectsuffixCt e (cs "KB") then intScale val 1024 err
  else if ← detectsuffixCt e (cs "MB") then intScale val 1048576 err
  else if ← detectsuffixCt e (cs "GB") then intScale val 1073741824 err
  else if ← detectsuffixCt e [] then .ok (val, err)
  else .ok (val, ARG_ERR_BADINT)

/-- `arg_int_scanfn`, arg_int.c:139-208. -/
def intScanCt (maxcount : Int) (o : IntObj) (argval : Option CStr) : M (IntObj × Int) :=
  if (o.count : Int) = maxcount then .ok (o, ARG_ERR_MAXCOUNT)
  else match argval with
    | none => .ok ({ o with count := o.count + 1 }, 0)
    | some a => do
      match ← intConvertCt a with
      | none => .ok (o, ARG_ERR_BADINT)
      | some (val, e) =>
        let (val, err) ← intSuffixCt val e
        if err = 0 then
          let ival ← storeAt o.ival o.count (some (intOfLong val))
          .ok ({ count := o.count + 1, ival := ival }, 0)
        else .ok (o, err)

/-! ## arg_date.c -/

/-- The formats of the nested conversions, arg_date.c:304-350, and whether `E` is allowed. -/
def nestedFormat (c : Char) : Option (Bool × CStr) :=
  if c = 'c' then some (true, cs "%x %X")
  else if c = 'D' then some (false, cs "%m/%d/%y")
  else if c = 'R' then some (false, cs "%H:%M")
  else if c = 'r' then some (false, cs "%I:%M:%S %p")
  else if c = 'T' then some (false, cs "%H:%M:%S")
  else if c = 'X' then some (true, cs "%H:%M:%S")
  else if c = 'x' then some (true, cs "%m/%d/%y")
  else none

/-- One conversion, arg_date.c:276-543: only `%n` and `%t` (line 537) and the nested calls come to `isspace`. -/
def convSpecCt (sub : CStr → CStr → Tm → M (Option (CStr × Tm))) (altE altO : Bool) (c : Char)
    (s : PState) : M (Option PState) :=
  match nestedFormat c with
  | some (allowE, fmt) =>
    if altO ∨ (altE ∧ ¬ allowE) then .ok none
    else do
      let r ← sub s.bp fmt s.tm
      .ok (r.map fun (bp, tm) => { s with bp := bp, tm := tm })
  | none =>
    if c = 'n' ∨ c = 't' then
      if altE ∨ altO then .ok none
      else do
        let bp ← skipSpaceCt s.bp
        .ok (some { s with bp := bp })
    else .ok (convSpec (fun _ _ _ => none) altE altO c s)

/-- The rest of the loop after a conversion; a failed one ends the function.
(the `while` loop of `arg_strptime`, arg_date.c:262-544.) -/
def goOnCt (rest : PState → M (Option PState)) : Option PState → M (Option PState)
  | none => .ok none
  | some s => rest s

/-- The main loop, arg_date.c:259-544; `k` bounds the number of iterations. -/
def strptimeLoopCt (sub : CStr → CStr → Tm → M (Option (CStr × Tm))) : (k : Nat) → (fmt : CStr) → PState →
    M (Option PState)
  | 0, _, _ => .error .fuel
  | _ + 1, [], s => .ok (some s)
  | k + 1, c :: fmt, s => do
    let b ← ct c (isSpace c)
    if b then do
      let bp ← skipSpaceCt s.bp
      strptimeLoopCt sub k fmt { s with bp := bp }
    else if c ≠ '%' then
      match s.bp with
      | d :: bp => if c = d then strptimeLoopCt sub k fmt { s with bp := bp } else .ok none
      | [] => .ok none
    else
      match fmt with
      | [] => .ok none
      | 'E' :: fmt =>
        match fmt with
        | [] => .ok none
        | c :: fmt =>
          if c = 'E' ∨ c = 'O' then .ok none
          else convSpecCt sub true false c s >>= goOnCt (strptimeLoopCt sub k fmt)
      | 'O' :: fmt =>
        match fmt with
        | [] => .ok none
        | c :: fmt =>
          if c = 'E' ∨ c = 'O' then .ok none
          else convSpecCt sub false true c s >>= goOnCt (strptimeLoopCt sub k fmt)
      | c :: fmt => convSpecCt sub false false c s >>= goOnCt (strptimeLoopCt sub k fmt)

/-- `arg_strptime` given its recursive call. -/
def strptimeWithCt (sub : CStr → CStr → Tm → M (Option (CStr × Tm))) (buf fmt : CStr) (tm : Tm) :
    M (Option (CStr × Tm)) := do
  let r ← strptimeLoopCt sub (fmt.length + 1) fmt ⟨buf, tm, false⟩
  .ok (r.map fun s => (s.bp, s.tm))

/-- `arg_strptime`, arg_date.c:251-548. -/
def strptimeCt : CStr → CStr → Tm → M (Option (CStr × Tm)) :=
  strptimeWithCt (strptimeWithCt (strptimeWithCt fun _ _ _ => .ok none))

/-- `arg_date_scanfn`, arg_date.c:49-71. -/
def dateScanCt (format : CStr) (maxcount : Int) (o : DateObj) (argval : Option CStr) :
    M (DateObj × Int) :=
  if (o.count : Int) = maxcount then .ok (o, ARG_ERR_MAXCOUNT)
  else match argval with
    | none => .ok ({ o with count := o.count + 1 }, 0)
    | some a =>
      match o.tmval[o.count]? with
      | none => .error (.ub "array index out of range")
      | some tm => do
        match ← strptimeCt a format tm with
        | some ([], tm) => do
          let tmval ← storeAt o.tmval o.count tm
          .ok ({ count := o.count + 1, tmval := tmval }, 0)
        | _ => .ok (o, ARG_ERR_BADDATE)

/-! ## `arg_print_formatted` (argtable3.c) -/

/-- argtable3.c:886-888. -/
def fmtSkipCt (text : CStr) : (k : Nat) → (i : Nat) → M Nat
  | 0, _ => .error .fuel
  | k + 1, i => do
    let c ← charAt text i
    let b ← ct c (isSpace c)
    if b ∧ c ≠ '\n' then fmtSkipCt text k (i + 1) else .ok i

/-- argtable3.c:894-896. -/
def fmtBackCt (text : CStr) (start : Nat) : (e : Nat) → M Nat
  | 0 => .ok 0
  | e + 1 =>
    if e + 1 > start then do
      let c ← charAt text (e + 1)
      let b ← ct c (isSpace c)
      if ¬ b then fmtBackCt text start e else .ok (e + 1)
    else .ok (e + 1)

/-- argtable3.c:904-906. -/
def fmtTrailCt (text : CStr) (start : Nat) : (e : Nat) → M Nat
  | 0 => .ok 0
  | e + 1 =>
    if e + 1 > start then do
      let c ← charAt text (e + 1)
      let b ← ct c (isSpace c)
      let d ← charAt text start
      if b ∧ d ≠ '\n' then fmtTrailCt text start e else .ok (e + 1)
    else .ok (e + 1)

/-- argtable3.c:891-911. -/
def fmtEndCt (text : CStr) (colwidth : Nat) (i e : Nat) : M Nat :=
  if wrap32 (e + 4294967296 - i) > colwidth then do
    let e0 := wrap32 (i + colwidth)
    let e1 ← fmtBackCt text i e0
    if e1 = i then .ok e0
    else do
      let e2 ← fmtTrailCt text i e1
      .ok (e2 + 1)
  else .ok e

/-- argtable3.c:882-938. -/
def fmtLoopCt (text : CStr) (lmargin colwidth : Nat) : (fuel : Nat) → (i e : Nat) → M CStr
  | 0, _, _ => .error .fuel
  | fuel + 1, i, e =>
    if e > i then do
      let i ← fmtSkipCt text (text.length + 1) i
      let e ← fmtEndCt text colwidth i e
      let (line, i) ← fmtLine text (e - i) i
      let (ind, e) := if e < text.length then (List.replicate lmargin ' ', text.length) else ([], e)
      let r ← fmtLoopCt text lmargin colwidth fuel i e
      .ok (line ++ '\n' :: (ind ++ r))
    else .ok []

/-- `arg_print_formatted_ds`, argtable3.c:869-939. -/
def printFormattedCt (fuel : Nat) (lmargin rmargin : Nat) (text : CStr) : M CStr :=
  fmtLoopCt text lmargin (wrap32 (rmargin + 4294967296 - lmargin + 1)) fuel 0 text.length

/-! ## arg_rex.c -/

/-- A call while compiling.  (arg_rex.c:422, 487, 549, 618, 630.) -/
def ctR {α : Type} (c : Char) (r : α) : RM α :=
  match ct c r with
  | .ok a => .ok a
  | .error f => .error (.fault f)

/-- `trex_escapechar`, arg_rex.c:400-425. -/
def escapecharCt (s : RState) : RM (Char × RState) :=
  match s.p with
  | [] => .error (.bad "letter expected")
  | '\\' :: [] => .error (.fault (.ub "trex_escapechar: read past the end of the pattern"))
  | '\\' :: c :: p => .ok ((escapeOf c).getD c, { s with p := p })
  | c :: p => do
    let b ← ctR c (isPrint c)
    if b then .ok (c, { s with p := p }) else .error (.bad "letter expected")

/-- `trex_charnode`, arg_rex.c:433-493. -/
def charnodeCt (isclass : Bool) (s : RState) : RM (Nat × RState) :=
  match s.p with
  | [] => .error (.bad "letter expected")
  | '\\' :: [] => .error (.fault (.ub "trex_charnode: read past the end of the pattern"))
  | '\\' :: c :: p =>
    match escapeOf c with
    | some e => newnode (.char e) { s with p := p }
    | none =>
      if isClassLetter c then rexCharclass c { s with p := p }
      else if (c = 'b' ∨ c = 'B') ∧ ¬ isclass then do
        let (n, s) ← newnode .wb { s with p := p }
        .ok (n, s.setLeft n (charInt c))
      else newnode (.char c) { s with p := p }
  | c :: p => do
    let b ← ctR c (isPrint c)
    if b then newnode (.char c) { s with p := p } else .error (.bad "letter expected")

/-- The loop of `trex_class`, arg_rex.c:507-533. -/
def classLoopCt : (fuel : Nat) → (first : Option Nat) → (chain : Nat) → RState → RM (Option Nat × Nat × RState)
  | 0, _, _, _ => .error (.fault .fuel)
  | fuel + 1, first, chain, s =>
    match s.p with
    | ']' :: _ => .ok (first, chain, s)
    | p =>
      match first, p with
      | some f, '-' :: p => do
        let s := { s with p := p }
        let (r, s) ← newnode .range s
        let here : Int := match s.p with
          | [] => 0
          | c :: _ => charInt c
        if (f : Int) > here then .error (.bad "invalid range")
        else
          match s.nodes[f]? with
          | none => .error (.fault (.ub "node index out of range"))
          | some fn =>
            if fn.type = .ccls then .error (.bad "cannot use character classes in ranges")
            else do
              let s := s.setLeft r fn.type.code
              let (t, s) ← escapecharCt s
              let s := s.setRight r (charInt t)
              classLoopCt fuel none r (s.setNext chain r)
      | some f, _ => do
        let (n, s) ← charnodeCt true (s.setNext chain f)
        classLoopCt fuel (some n) f s
      | none, _ => do
        let (n, s) ← charnodeCt true s
        classLoopCt fuel (some n) chain s

/-- `trex_class`, arg_rex.c:494-543. -/
def rexClassCt (s : RState) : RM (Nat × RState) := do
  let (ret, s) ← classHead s
  match s.p with
  | ']' :: _ => .error (.bad "empty class")
  | _ => do
    let (first, chain, s) ← classLoopCt (s.p.length + 1) none ret s
    let s := match first with
      | some f => s.setNext chain f
      | none => s
    match s.nodes[ret]? with
    | none => .error (.fault (.ub "node index out of range"))
    | some n => .ok (ret, (s.setLeft ret n.next).setNext ret (-1))

/-- The loop of `trex_parsenumber`, arg_rex.c:549-554. -/
def parseDigitsCt : (p : CStr) → (ret positions : Int) → RM (Int × CStr)
  | [], ret, _ => .ok (ret, [])
  | c :: p, ret, positions => do
    let b ← ctR c (isDigit c)
    if b then
      if ret * 10 + (c.toNat - 48) > INT_MAX then
        .error (.fault (.ub "trex_parsenumber: signed overflow"))
      else if positions = 1000000000 then .error (.bad "overflow in numeric constant")
      else parseDigitsCt p (ret * 10 + (c.toNat - 48)) (positions * 10)
    else .ok (ret, c :: p)

/-- `trex_parsenumber`, arg_rex.c:545-556. -/
def parseNumberCt (s : RState) : RM (Nat × RState) :=
  match s.p with
  | c :: p => do
    let (n, p) ← parseDigitsCt p (c.toNat - 48) 10
    .ok ((n % 65536).toNat, { s with p := p })
  | [] => .error (.fault (.ub "trex_parsenumber: read past the end of the pattern"))

/-- arg_rex.c:624-628. -/
def quantUpperCt (s : RState) : RM (Nat × RState) :=
  match s.p with
  | c :: _ => do
    let b ← ctR c (isDigit c)
    if b then parseNumberCt s else .ok (65535, s)
  | [] => .ok (65535, s)

/-- arg_rex.c:596-641. -/
def quantifierCt (s : RState) : RM (Option (Nat × Nat) × RState) :=
  match s.p with
  | '*' :: p => .ok (some (0, 65535), { s with p := p })
  | '+' :: p => .ok (some (1, 65535), { s with p := p })
  | '?' :: p => .ok (some (0, 1), { s with p := p })
  | '{' :: p =>
    match p with
    | c :: _ => do
      let b ← ctR c (isDigit c)
      if ¬ b then .error (.bad "number expected")
      else do
        let (p0, s) ← parseNumberCt { s with p := p }
        match s.p with
        | '}' :: p => .ok (some (p0, p0), { s with p := p })
        | ',' :: p => do
          let (p1, s) ← quantUpperCt { s with p := p }
          let s ← rexExpect '}' s
          .ok (some (p0, p1), s)
        | _ => .error (.bad ", or } expected")
    | [] => .error (.bad "number expected")
  | _ => .ok (none, s)

/-- arg_rex.c:561-594. -/
def rexAtomCt (list : RState → RM (Nat × RState)) (s : RState) : RM (Nat × RState) :=
  match s.p with
  | '(' :: p => do
    let (expr, s) ← groupHead { s with p := p }
    let (newn, s) ← list s
    let s ← rexExpect ')' (s.setLeft expr newn)
    .ok (expr, s)
  | '[' :: p => do
    let (ret, s) ← rexClassCt { s with p := p }
    let s ← rexExpect ']' s
    .ok (ret, s)
  | '$' :: p => newnode .eol { s with p := p }
  | '.' :: p => newnode .dot { s with p := p }
  | _ => charnodeCt false s

mutual
/-- `trex_element`, arg_rex.c:558-656. -/
def rexElementCt : (fuel : Nat) → RState → RM (Nat × RState)
  | 0, _ => .error (.fault .fuel)
  | fuel + 1, s => do
    let (ret, s) ← rexAtomCt (rexListCt fuel) s
    let (q, s) ← quantifierCt s
    let (ret, s) ← wrapGreedy ret q s
    match s.p with
    | [] => .ok (ret, s)
    | c :: _ =>
      if c ≠ '|' ∧ c ≠ ')' ∧ c ≠ '*' ∧ c ≠ '+' then do
        let (n, s) ← rexElementCt fuel s
        .ok (ret, s.setNext ret n)
      else .ok (ret, s)

/-- `trex_list`, arg_rex.c:658-680. -/
def rexListCt : (fuel : Nat) → RState → RM (Nat × RState)
  | 0, _ => .error (.fault .fuel)
  | fuel + 1, s => do
    let (ret, s) ← listHead (rexElementCt fuel) s
    match s.p with
    | '|' :: p => do
      let (temp, s) ← newnode .or { s with p := p }
      let (tright, s) ← rexListCt fuel (s.setLeft temp ret)
      .ok (temp, s.setRight temp tright)
    | _ => .ok (ret, s)
end

/-- `trex_compile`, arg_rex.c:903-943. -/
def rexCompileCt (pattern : CStr) : M (Option (List RNode)) :=
  let r : RM (List RNode) := do
    let (first, s) ← newnode .expr ⟨pattern, [], pattern.length, 0⟩
    let (res, s) ← rexListCt (2 * pattern.length + 2) s
    let s := s.setLeft first res
    if s.p ≠ [] then .error (.bad "unexpected character") else .ok s.nodes
  match r with
  | .ok nodes => .ok (some nodes)
  | .error (.bad _) => .ok none
  | .error (.fault f) => .error f

/-- `trex_matchcclass`, arg_rex.c:682-718: one call for each of the letters. -/
def matchcclassCt (cclass : Char) (c : Char) : M Bool :=
  if isClassLetter cclass then ct c (matchcclass cclass c) else .ok (matchcclass cclass c)

/-- One alternative of `trex_matchclass`, arg_rex.c:722-746, with its short-circuit evaluation. -/
def classItemCt (icase : Bool) (n : RNode) (c : Char) : M Bool :=
  match n.type with
  | .range =>
    if icase then do
      let lo ← ctInt n.left (charInt (toUpper (intChar n.left)))
      let first ← if charInt c ≥ lo then do
          let hi ← ctInt n.right (charInt (toUpper (intChar n.right)))
          .ok (charInt c ≤ hi : Bool)
        else .ok false
      if first then .ok true
      else do
        let lo ← ctInt n.left (charInt (toLower (intChar n.left)))
        if charInt c ≥ lo then do
          let hi ← ctInt n.right (charInt (toLower (intChar n.right)))
          .ok (charInt c ≤ hi : Bool)
        else .ok false
    else .ok (charInt c ≥ n.left ∧ charInt c ≤ n.right : Bool)
  | .ccls => matchcclassCt (intChar n.left) c
  | .char d =>
    if icase then do
      let l ← ct d (toLower d)
      if c = l then .ok true
      else do
        let u ← ct d (toUpper d)
        .ok (c = u : Bool)
    else .ok (c = d : Bool)
  | _ => .ok false

/-- `trex_matchclass`, arg_rex.c:720-749. -/
def matchclassCt (nodes : List RNode) (icase : Bool) (c : Char) : (k : Nat) → (node : Int) → M Bool
  | 0, _ => .error .fuel
  | k + 1, node => do
    let n ← nodeAt nodes node
    let b ← classItemCt icase n c
    if b then .ok true
    else if n.next ≠ -1 then matchclassCt nodes icase c k n.next
    else .ok false

/-- arg_rex.c:860. -/
def wordEndCt (text : CStr) (str : Nat) : M Bool :=
  if str = text.length then do
    let p ← textAt text (str - 1)
    let b ← ct p (isSpace p)
    .ok (!b)
  else .ok false

/-- The word-boundary condition, arg_rex.c:859-861, with its short-circuit evaluation. -/
def wordBoundaryCt (text : CStr) (str : Nat) : M Bool := do
  let c ← textAt text str
  let first ← if str = 0 then ct c (!isSpace c) else .ok false
  if first then .ok true
  else do
    let atEnd ← wordEndCt text str
    if atEnd then .ok true
    else do
      let b ← ct c (isSpace c)
      let d ← textAt text (str + 1)
      let e ← ct d (isSpace d)
      .ok (b != e)

/-- `trex_matchnode`, arg_rex.c:751-900. -/
def matchnodeCt (nodes : List RNode) (icase : Bool) (text : CStr) : (fuel : Nat) → Matcher
  | 0, _, _, _ => .error .fuel
  | fuel + 1, i, str, next => do
    let node ← nodeAt nodes i
    let m := matchnodeCt nodes icase text fuel
    match node.type with
    | .greedy => do
      let greedystop := if node.next ≠ -1 then some node.next else next
      let (nm, good) ← greedyLoop nodes text.length m node.p0 node.p1 node.left greedystop next
        65537 0 str str
      if greedyOk node.p0 node.p1 nm then .ok (some good) else .ok none
    | .or => do
      match ← orChain nodes m (nodes.length + 1) node.left str with
      | some s => .ok (some s)
      | none => orChain nodes m (nodes.length + 1) node.right str
    | .expr | .nocap => exprChain nodes m next (nodes.length + 1) node.left str
    | .wb => do
      let b ← wordBoundaryCt text str
      if b then .ok (if intChar node.left = 'b' then some str else none)
      else .ok (if intChar node.left = 'b' then none else some str)
    | .bol => .ok (if str = 0 then some str else none)
    | .eol => .ok (if str = text.length then some str else none)
    | .dot => .ok (some (str + 1))
    | .ncls => do
      let c ← textAt text str
      let b ← matchclassCt nodes icase c (nodes.length + 1) node.left
      .ok (if b then none else some (str + 1))
    | .cls => do
      let c ← textAt text str
      let b ← matchclassCt nodes icase c (nodes.length + 1) node.left
      .ok (if b then some (str + 1) else none)
    | .ccls => do
      let c ← textAt text str
      let b ← matchcclassCt (intChar node.left) c
      .ok (if b then some (str + 1) else none)
    | .range => .ok none
    | .char d => do
      let c ← textAt text str
      if icase then do
        let l ← ct d (toLower d)
        if c ≠ l then do
          let u ← ct d (toUpper d)
          .ok (if c ≠ u then none else some (str + 1))
        else .ok (some (str + 1))
      else .ok (if c ≠ d then none else some (str + 1))

/-- `trex_match`, arg_rex.c:954-963. -/
def rexMatchCt (nodes : List RNode) (icase : Bool) (text : CStr) : M Bool := do
  let r ← matchnodeCt nodes icase text ((nodes.length + 1) * (nodes.length + 1)) 0 0 none
  .ok (r = some text.length)

/-- `arg_rex_scanfn`, arg_rex.c:130-162. -/
def rexScanCt (pattern : CStr) (icase : Bool) (maxcount : Int) (o : StrObj) (argval : Option CStr) :
    M (StrObj × Int) :=
  if (o.count : Int) = maxcount then .ok (o, ARG_ERR_MAXCOUNT)
  else match argval with
    | none => .ok ({ o with count := o.count + 1 }, 0)
    | some a => do
      match ← rexCompileCt pattern with
      | none => .error (.ub "trex_match: NULL pointer dereference")
      | some nodes => do
        if ← rexMatchCt nodes icase a then
          let sval ← storeAt o.sval o.count a
          .ok ({ count := o.count + 1, sval := sval }, 0)
        else .ok (o, ARG_ERR_REGNOMATCH)

end Argtable
