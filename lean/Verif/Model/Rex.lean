import Verif.Model.Values
/-!
# T-Rex, the embedded regular expression engine, and arg_rex (arg_rex.c)

Captures (`_matches`, `_currsubexp`, arg_rex.c:830-858) are left out here: argtable3 never reads them.
Model/RexMem.lean has the same code with captures and memory; C64 relates the two.
-/

namespace Argtable

/-- `TRexNodeType`: a character or one of the codes `OP_...`, arg_rex.c:321-333. -/
inductive RType where
  | char (c : Char)
  | greedy | or | expr | nocap | dot | cls | ccls | ncls | range | eol | bol | wb
deriving DecidableEq, Repr

/-- `TRexNode`, arg_rex.c:346-351.  For `OP_CCLASS` and `OP_WB`, `left` is a character code, for
`OP_RANGE` both fields are; otherwise they are node indices, `-1` standing for none. -/
structure RNode where
  type : RType
  left : Int := -1
  right : Int := -1
  next : Int := -1
deriving DecidableEq, Repr

/-- How compiling can fail: `longjmp` from `trex_error`, or a fault.  (arg_rex.c:388-392.) -/
inductive RErr where
  | bad (why : String)
  | fault (f : Fault)
deriving DecidableEq, Repr

/-- Results of the compiler functions.  (arg_rex.c:372-680.) -/
abbrev RM := Except RErr

/-- The part of `struct TRex` used while compiling: the position in the pattern, the nodes,
`_nallocated`, `_nsubexpr`.  (arg_rex.c:353-368.) -/
structure RState where
  p : CStr
  nodes : List RNode
  nalloc : Nat
  nsub : Nat
deriving DecidableEq, Repr

/-- `trex_newnode`, arg_rex.c:372-386.  Doubling `_nallocated` is enough unless it is 0. -/
def newnode (type : RType) (s : RState) : RM (Nat × RState) :=
  let nalloc := if s.nalloc < s.nodes.length + 1 then s.nalloc * 2 else s.nalloc
  let right : Int := if type = .expr then s.nsub else -1
  let nsub := if type = .expr then s.nsub + 1 else s.nsub
  if s.nodes.length < nalloc then
    .ok (s.nodes.length, { s with nodes := s.nodes ++ [{ type := type, right := right }],
                                  nalloc := nalloc, nsub := nsub })
  else .error (.fault (.ub "trex_newnode: write outside the node array"))

/-- `exp->_nodes[i].left = v`.  (arg_rex.c:433-680.) -/
def RState.setLeft (s : RState) (i : Nat) (v : Int) : RState :=
  { s with nodes := s.nodes.modify i fun n => { n with left := v } }
/-- `exp->_nodes[i].right = v`.  (arg_rex.c:433-680.) -/
def RState.setRight (s : RState) (i : Nat) (v : Int) : RState :=
  { s with nodes := s.nodes.modify i fun n => { n with right := v } }
/-- `exp->_nodes[i].next = v`.  (arg_rex.c:494-680.) -/
def RState.setNext (s : RState) (i : Nat) (v : Int) : RState :=
  { s with nodes := s.nodes.modify i fun n => { n with next := v } }

/-- `isprint` in the C locale.  (arg_rex.c:307, 422, 487.) -/
def isPrint (c : Char) : Bool := 32 ≤ c.toNat && c.toNat ≤ 126

/-- `trex_expect`, arg_rex.c:394-398. -/
def rexExpect (c : Char) (s : RState) : RM RState :=
  match s.p with
  | d :: p => if d = c then .ok { s with p := p } else .error (.bad "expected paren")
  | [] => .error (.bad "expected paren")

/-- The control characters that can be written as escapes, arg_rex.c:404-418 and 438-452. -/
def escapeOf (c : Char) : Option Char :=
  if c = 'v' then some '\x0b' else if c = 'n' then some '\n' else if c = 't' then some '\t'
  else if c = 'r' then some '\r' else if c = 'f' then some '\x0c' else none

/-- `trex_escapechar`, arg_rex.c:400-425.  After a backslash at the end of the pattern the NUL is
consumed, and the caller's next look at the pattern is out of bounds. -/
def escapechar (s : RState) : RM (Char × RState) :=
  match s.p with
  | [] => .error (.bad "letter expected")
  | '\\' :: [] => .error (.fault (.ub "trex_escapechar: read past the end of the pattern"))
  | '\\' :: c :: p => .ok ((escapeOf c).getD c, { s with p := p })
  | c :: p => if isPrint c then .ok (c, { s with p := p }) else .error (.bad "letter expected")

/-- The letters of character class escapes, arg_rex.c:453-468. -/
def isClassLetter (c : Char) : Bool := c ∈ cs "aAwWsSdDxXcCpPlu"

/-- `trex_charclass`, arg_rex.c:427-431. -/
def rexCharclass (c : Char) (s : RState) : RM (Nat × RState) := do
  let (n, s) ← newnode .ccls s
  .ok (n, s.setLeft n (charInt c))

/-- `trex_charnode`, arg_rex.c:433-493.  For a backslash at the end of the pattern see `escapechar`. -/
def charnode (isclass : Bool) (s : RState) : RM (Nat × RState) :=
  match s.p with
  | [] => .error (.bad "letter expected")
  | '\\' :: [] => .error (.fault (.ub "trex_charnode: read past the end of the pattern"))
  | '\\' :: c :: p =>
    match escapeOf c with
    | some e => newnode (.char e) { s with p := p }
    | none =>
      if isClassLetter c then rexCharclass c { s with p := p }
      else if (c = 'b' ∨ c = 'B') ∧ ¬ isclass then do
        let (n, s) ← newnode .wb { s with p := p }
        .ok (n, s.setLeft n (charInt c))
      else newnode (.char c) { s with p := p }
  | c :: p => if isPrint c then newnode (.char c) { s with p := p }
              else .error (.bad "letter expected")

/-- `node.type` as an `int`, for a character node (arg_rex.c:518). -/
def RType.code : RType → Int
  | .char c => charInt c
  | _ => 0

/-- The loop of `trex_class`, arg_rex.c:507-533.  `first` is the pending node (`none` for -1),
`chain` the last node of the chain.  (`_eol` is NULL while compiling, so the loop ends only at `]`
or by an error.) -/
def classLoop : (fuel : Nat) → (first : Option Nat) → (chain : Nat) → RState → RM (Option Nat × Nat × RState)
  | 0, _, _, _ => .error (.fault .fuel)
  | fuel + 1, first, chain, s =>
    match s.p with
    | ']' :: _ => .ok (first, chain, s)
    | p =>
      match first, p with
      | some f, '-' :: p => do
        -- the test for "unfinished range" looks at the '-' itself and never fires
        let s := { s with p := p }
        let (r, s) ← newnode .range s
        let here : Int := match s.p with
          | [] => 0
          | c :: _ => charInt c
        if (f : Int) > here then .error (.bad "invalid range")
        else
          match s.nodes[f]? with
          | none => .error (.fault (.ub "node index out of range"))
          | some fn =>
            if fn.type = .ccls then .error (.bad "cannot use character classes in ranges")
            else do
              let s := s.setLeft r fn.type.code
              let (t, s) ← escapechar s
              let s := s.setRight r (charInt t)
              classLoop fuel none r (s.setNext chain r)
      | some f, _ => do
        let (n, s) ← charnode true (s.setNext chain f)
        classLoop fuel (some n) f s
      | none, _ => do
        let (n, s) ← charnode true s
        classLoop fuel (some n) chain s

/-- The node of a class, arg_rex.c:496-503. -/
def classHead (s : RState) : RM (Nat × RState) :=
  match s.p with
  | '^' :: p => do
    let (n, s) ← newnode .ncls s
    .ok (n, { s with p := p })
  | _ => newnode .cls s

/-- `trex_class`, arg_rex.c:494-543. -/
def rexClass (s : RState) : RM (Nat × RState) := do
  let (ret, s) ← classHead s
  match s.p with
  | ']' :: _ => .error (.bad "empty class")
  | _ => do
    let (first, chain, s) ← classLoop (s.p.length + 1) none ret s
    let s := match first with
      | some f => s.setNext chain f
      | none => s
    match s.nodes[ret]? with
    | none => .error (.fault (.ub "node index out of range"))
    | some n => .ok (ret, (s.setLeft ret n.next).setNext ret (-1))

/-- The loop of `trex_parsenumber`, arg_rex.c:549-554. -/
def parseDigits : (p : CStr) → (ret positions : Int) → RM (Int × CStr)
  | [], ret, _ => .ok (ret, [])
  | c :: p, ret, positions =>
    if isDigit c then
      if ret * 10 + (c.toNat - 48) > INT_MAX then
        .error (.fault (.ub "trex_parsenumber: signed overflow"))
      else if positions = 1000000000 then .error (.bad "overflow in numeric constant")
      else parseDigits p (ret * 10 + (c.toNat - 48)) (positions * 10)
    else .ok (ret, c :: p)

/-- `trex_parsenumber`, arg_rex.c:545-556, with the conversion to `unsigned short` of the callers; the
first character is a digit. -/
def parseNumber (s : RState) : RM (Nat × RState) :=
  match s.p with
  | c :: p => do
    let (n, p) ← parseDigits p (c.toNat - 48) 10
    .ok ((n % 65536).toNat, { s with p := p })
  | [] => .error (.fault (.ub "trex_parsenumber: read past the end of the pattern"))

/-- The upper bound of `{p0,p1}`, arg_rex.c:624-628. -/
def quantUpper (s : RState) : RM (Nat × RState) :=
  match s.p with
  | c :: _ => if isDigit c then parseNumber s else .ok (65535, s)
  | [] => .ok (65535, s)

/-- The quantifier after an element, arg_rex.c:596-641: `(p0, p1)`. -/
def quantifier (s : RState) : RM (Option (Nat × Nat) × RState) :=
  match s.p with
  | '*' :: p => .ok (some (0, 65535), { s with p := p })
  | '+' :: p => .ok (some (1, 65535), { s with p := p })
  | '?' :: p => .ok (some (0, 1), { s with p := p })
  | '{' :: p =>
    match p with
    | c :: _ =>
      if ¬ isDigit c then .error (.bad "number expected")
      else do
        let (p0, s) ← parseNumber { s with p := p }
        match s.p with
        | '}' :: p => .ok (some (p0, p0), { s with p := p })
        | ',' :: p => do
          let (p1, s) ← quantUpper { s with p := p }
          let s ← rexExpect '}' s
          .ok (some (p0, p1), s)
        | _ => .error (.bad ", or } expected")
    | [] => .error (.bad "number expected")
  | _ => .ok (none, s)

/-- The node of a group, arg_rex.c:563-575. -/
def groupHead (s : RState) : RM (Nat × RState) :=
  match s.p with
  | '?' :: p => do
    let s ← rexExpect ':' { s with p := p }
    newnode .nocap s
  | _ => newnode .expr s

/-- The part of `trex_element` before the quantifier, arg_rex.c:561-594; `list` is `trex_list`. -/
def rexAtom (list : RState → RM (Nat × RState)) (s : RState) : RM (Nat × RState) :=
  match s.p with
  | '(' :: p => do
    let (expr, s) ← groupHead { s with p := p }
    let (newn, s) ← list s
    let s ← rexExpect ')' (s.setLeft expr newn)
    .ok (expr, s)
  | '[' :: p => do
    let (ret, s) ← rexClass { s with p := p }
    let s ← rexExpect ']' s
    .ok (ret, s)
  | '$' :: p => newnode .eol { s with p := p }
  | '.' :: p => newnode .dot { s with p := p }
  | _ => charnode false s

/-- Wrapping an element in an `OP_GREEDY` node, arg_rex.c:642-648.  The shift `p0 << 16` overflows
`int` for `p0 ≥ 0x8000`. -/
def wrapGreedy (ret : Nat) (q : Option (Nat × Nat)) (s : RState) : RM (Nat × RState) :=
  match q with
  | none => .ok (ret, s)
  | some (p0, p1) =>
    if p0 ≥ 32768 then .error (.fault (.ub "trex_element: signed shift overflow"))
    else do
      let (n, s) ← newnode .greedy s
      .ok (n, (s.setLeft n ret).setRight n (p0 * 65536 + p1))

/-- The start of `trex_list`, arg_rex.c:660-668; `element` is `trex_element`. -/
def listHead (element : RState → RM (Nat × RState)) (s : RState) : RM (Nat × RState) :=
  match s.p with
  | '^' :: p => do
    let (b, s) ← newnode .bol { s with p := p }
    let (e, s) ← element s
    .ok (b, s.setNext b e)
  | _ => element s

mutual
/-- `trex_element`, arg_rex.c:558-656. -/
def rexElement : (fuel : Nat) → RState → RM (Nat × RState)
  | 0, _ => .error (.fault .fuel)
  | fuel + 1, s => do
    let (ret, s) ← rexAtom (rexList fuel) s
    let (q, s) ← quantifier s
    let (ret, s) ← wrapGreedy ret q s
    match s.p with
    | [] => .ok (ret, s)
    | c :: _ =>
      if c ≠ '|' ∧ c ≠ ')' ∧ c ≠ '*' ∧ c ≠ '+' then do
        let (n, s) ← rexElement fuel s
        .ok (ret, s.setNext ret n)
      else .ok (ret, s)

/-- `trex_list`, arg_rex.c:658-680. -/
def rexList : (fuel : Nat) → RState → RM (Nat × RState)
  | 0, _ => .error (.fault .fuel)
  | fuel + 1, s => do
    let (ret, s) ← listHead (rexElement fuel) s
    match s.p with
    | '|' :: p => do
      let (temp, s) ← newnode .or { s with p := p }
      let (tright, s) ← rexList fuel (s.setLeft temp ret)
      .ok (temp, s.setRight temp tright)
    | _ => .ok (ret, s)
end

/-- `trex_compile`, arg_rex.c:903-943: the node array (`_first` is 0), or NULL.  The recursion depth of
`trex_list`/`trex_element` is bounded by the length of the pattern (see `rexCompile_not_fuel`). -/
def rexCompile (pattern : CStr) : M (Option (List RNode)) :=
  let r : RM (List RNode) := do
    let (first, s) ← newnode .expr ⟨pattern, [], pattern.length, 0⟩
    let (res, s) ← rexList (2 * pattern.length + 2) s
    let s := s.setLeft first res
    if s.p ≠ [] then .error (.bad "unexpected character") else .ok s.nodes
  match r with
  | .ok nodes => .ok (some nodes)
  | .error (.bad _) => .ok none
  | .error (.fault f) => .error f

/-! ## Matching -/

/-- Character classes of `<ctype.h>` in the C locale.  (arg_rex.c:682-718.) -/
def isAlpha (c : Char) : Bool := ('a' ≤ c && c ≤ 'z') || ('A' ≤ c && c ≤ 'Z')
/-- `isalnum` in the C locale (arg_rex.c:689-691). -/
def isAlnum (c : Char) : Bool := isAlpha c || isDigit c
/-- `isxdigit` in the C locale (arg_rex.c:701-703). -/
def isXdigit (c : Char) : Bool := isDigit c || ('a' ≤ c && c ≤ 'f') || ('A' ≤ c && c ≤ 'F')
/-- `iscntrl` in the C locale (arg_rex.c:705-707). -/
def isCntrl (c : Char) : Bool := c.toNat < 32 || c.toNat == 127
/-- `ispunct` in the C locale (arg_rex.c:709-711). -/
def isPunct (c : Char) : Bool := isPrint c && c != ' ' && !isAlnum c
/-- `islower` in the C locale (arg_rex.c:713). -/
def isLower (c : Char) : Bool := 'a' ≤ c && c ≤ 'z'
/-- `isupper` in the C locale (arg_rex.c:715). -/
def isUpper (c : Char) : Bool := 'A' ≤ c && c ≤ 'Z'

/-- `trex_matchcclass`, arg_rex.c:682-718. -/
def matchcclass (cclass : Char) (c : Char) : Bool :=
  match cclass with
  | 'a' => isAlpha c
  | 'A' => !isAlpha c
  | 'w' => isAlnum c || c == '_'
  | 'W' => !isAlnum c && c != '_'
  | 's' => isSpace c
  | 'S' => !isSpace c
  | 'd' => isDigit c
  | 'D' => !isDigit c
  | 'x' => isXdigit c
  | 'X' => !isXdigit c
  | 'c' => isCntrl c
  | 'C' => !isCntrl c
  | 'p' => isPunct c
  | 'P' => !isPunct c
  | 'l' => isLower c
  | 'u' => isUpper c
  | _ => false

/-- `&exp->_nodes[i]`, dereferenced by the code that follows.  (arg_rex.c:720-900.) -/
def nodeAt (nodes : List RNode) (i : Int) : M RNode :=
  if i < 0 then .error (.ub "node index out of range")
  else match nodes[i.toNat]? with
    | some n => .ok n
    | none => .error (.ub "node index out of range")

/-- `*(text + pos)`: the text is followed by one NUL; reading further is out of bounds.  (arg_rex.c:751-900.) -/
def textAt (text : CStr) (pos : Nat) : M Char :=
  if pos < text.length then .ok (text.getD pos '\x00')
  else if pos = text.length then .ok '\x00'
  else .error (.ub "read past the end of the text")

/-- One alternative of `trex_matchclass`, arg_rex.c:722-746. -/
def classItem (icase : Bool) (n : RNode) (c : Char) : Bool :=
  match n.type with
  | .range =>
    if icase then
      (charInt c ≥ charInt (toUpper (intChar n.left)) ∧ charInt c ≤ charInt (toUpper (intChar n.right)))
      ∨ (charInt c ≥ charInt (toLower (intChar n.left)) ∧ charInt c ≤ charInt (toLower (intChar n.right)))
    else charInt c ≥ n.left ∧ charInt c ≤ n.right
  | .ccls => matchcclass (intChar n.left) c
  | .char d => if icase then c = toLower d ∨ c = toUpper d else c = d
  | _ => false

/-- `trex_matchclass`, arg_rex.c:720-749; `k` bounds the length of the chain. -/
def matchclass (nodes : List RNode) (icase : Bool) (c : Char) : (k : Nat) → (node : Int) → M Bool
  | 0, _ => .error .fuel
  | k + 1, node => do
    let n ← nodeAt nodes node
    if classItem icase n c then .ok true
    else if n.next ≠ -1 then matchclass nodes icase c k n.next
    else .ok false

/-- The type of `trex_matchnode` as a function of node, position and `next`; NULL is `none`.  (arg_rex.c:751.) -/
abbrev Matcher := Int → Nat → Option Int → M (Option Nat)

/-- `p0`, `p1` of an `OP_GREEDY` node, arg_rex.c:757. -/
def RNode.p0 (n : RNode) : Nat := (n.right / 65536).toNat
/-- `p1` of an `OP_GREEDY` node, arg_rex.c:757. -/
def RNode.p1 (n : RNode) : Nat := (n.right % 65536).toNat

/-- The acceptance tests arg_rex.c:784-791 and 799-804. -/
def greedyOk (p0 p1 nm : Nat) : Bool :=
  (p0 = p1 ∧ p0 = nm) ∨ (nm ≥ p0 ∧ p1 = 65535) ∨ (nm ≥ p0 ∧ nm ≤ p1)

/-- `gnext`, arg_rex.c:775-780. -/
def greedyNext (nodes : List RNode) (gn : RNode) (next : Option Int) : M (Option Int) :=
  if gn.next ≠ -1 then .ok (some gn.next)
  else match next with
    | none => .ok none
    | some x => do
      let xn ← nodeAt nodes x
      .ok (if xn.next ≠ -1 then some xn.next else none)

/-- Does what follows a greedy node match here?  arg_rex.c:773-783: `none` if the test is skipped. -/
def greedyStopTest (nodes : List RNode) (m : Matcher) (greedystop next : Option Int) (s : Nat) :
    M Bool :=
  match greedystop with
  | none => .ok false
  | some g => do
    let gn ← nodeAt nodes g
    if gn.type ≠ .greedy ∨ gn.p0 ≠ 0 then do
      let gnext ← greedyNext nodes gn next
      let stop ← m g s gnext
      .ok stop.isSome
    else .ok false

/-- The loop of `OP_GREEDY`, arg_rex.c:766-797: the number of matches and `good`.  `k` bounds the
number of iterations (at most 65536 are possible since `nmaches` grows). -/
def greedyLoop (nodes : List RNode) (eol : Nat) (m : Matcher) (p0 p1 : Nat) (left : Int)
    (greedystop next : Option Int) : (k : Nat) → (nm s good : Nat) → M (Nat × Nat)
  | 0, _, _, _ => .error .fuel
  | k + 1, nm, s, good =>
    if nm = 65535 ∨ nm < p1 then do
      match ← m left s greedystop with
      | none => .ok (nm, good)
      | some s => do
        let nm := nm + 1
        let stop ← greedyStopTest nodes m greedystop next s
        if stop ∧ greedyOk p0 p1 nm then .ok (nm, s)
        else if s ≥ eol then .ok (nm, s)
        else greedyLoop nodes eol m p0 p1 left greedystop next k nm s s
    else .ok (nm, good)

/-- One alternative of `OP_OR`, arg_rex.c:810-815 and 818-823; `k` bounds the length of the chain. -/
def orChain (nodes : List RNode) (m : Matcher) : (k : Nat) → (temp : Int) → (s : Nat) → M (Option Nat)
  | 0, _, _ => .error .fuel
  | k + 1, temp, s => do
    match ← m temp s none with
    | none => .ok none
    | some s => do
      let n ← nodeAt nodes temp
      if n.next ≠ -1 then orChain nodes m k n.next s else .ok (some s)

/-- The loop of `OP_EXPR`, arg_rex.c:838-852; `k` bounds the length of the chain. -/
def exprChain (nodes : List RNode) (m : Matcher) (next : Option Int) :
    (k : Nat) → (n : Int) → (s : Nat) → M (Option Nat)
  | 0, _, _ => .error .fuel
  | k + 1, i, s => do
    let n ← nodeAt nodes i
    let subnext := if n.next ≠ -1 then some n.next else next
    match ← m i s subnext with
    | none => .ok none
    | some s => if n.next ≠ -1 then exprChain nodes m next k n.next s else .ok (some s)

/-- At the end of the text after a non-space, arg_rex.c:860.  (`str == _bol` with a space cannot be at
the end, so `str - 1` exists.) -/
def wordEnd (text : CStr) (str : Nat) : M Bool :=
  if str = text.length then do
    let p ← textAt text (str - 1)
    .ok (!isSpace p)
  else .ok false

/-- The word-boundary condition, arg_rex.c:859-861, with its short-circuit evaluation. -/
def wordBoundary (text : CStr) (str : Nat) : M Bool := do
  let c ← textAt text str
  if str = 0 ∧ ¬ isSpace c then .ok true
  else do
    let atEnd ← wordEnd text str
    if atEnd then .ok true
    else do
      let d ← textAt text (str + 1)
      .ok (isSpace c != isSpace d)

/-- `trex_matchnode`, arg_rex.c:751-900; `fuel` bounds the recursion depth. -/
def matchnode (nodes : List RNode) (icase : Bool) (text : CStr) : (fuel : Nat) → Matcher
  | 0, _, _, _ => .error .fuel
  | fuel + 1, i, str, next => do
    let node ← nodeAt nodes i
    let m := matchnode nodes icase text fuel
    match node.type with
    | .greedy => do
      let greedystop := if node.next ≠ -1 then some node.next else next
      let (nm, good) ← greedyLoop nodes text.length m node.p0 node.p1 node.left greedystop next
        65537 0 str str
      if greedyOk node.p0 node.p1 nm then .ok (some good) else .ok none
    | .or => do
      match ← orChain nodes m (nodes.length + 1) node.left str with
      | some s => .ok (some s)
      | none => orChain nodes m (nodes.length + 1) node.right str
    | .expr | .nocap => exprChain nodes m next (nodes.length + 1) node.left str
    | .wb => do
      let b ← wordBoundary text str
      if b then .ok (if intChar node.left = 'b' then some str else none)
      else .ok (if intChar node.left = 'b' then none else some str)
    | .bol => .ok (if str = 0 then some str else none)
    | .eol => .ok (if str = text.length then some str else none)
    | .dot => .ok (some (str + 1))
    | .ncls => do
      let c ← textAt text str
      let b ← matchclass nodes icase c (nodes.length + 1) node.left
      .ok (if b then none else some (str + 1))
    | .cls => do
      let c ← textAt text str
      let b ← matchclass nodes icase c (nodes.length + 1) node.left
      .ok (if b then some (str + 1) else none)
    | .ccls => do
      let c ← textAt text str
      .ok (if matchcclass (intChar node.left) c then some (str + 1) else none)
    | .range =>
      -- never the type of a node reached here; the `default` branch compares with the code
      .ok none
    | .char d => do
      let c ← textAt text str
      if icase then
        .ok (if c ≠ toLower d ∧ c ≠ toUpper d then none else some (str + 1))
      else .ok (if c ≠ d then none else some (str + 1))

/-- `trex_match`, arg_rex.c:954-963.  The recursion depth is bounded by the number of nodes (see
`rexMatch_not_fuel`). -/
def rexMatch (nodes : List RNode) (icase : Bool) (text : CStr) : M Bool := do
  let r ← matchnode nodes icase text ((nodes.length + 1) * (nodes.length + 1)) 0 0 none
  .ok (r = some text.length)

/-- `arg_rex_scanfn`, arg_rex.c:130-162; the state is that of `arg_str`.  `trex_match` is called even
if `trex_compile` returned NULL. -/
def rexScan (pattern : CStr) (icase : Bool) (maxcount : Int) (o : StrObj) (argval : Option CStr) :
    M (StrObj × Int) :=
  if (o.count : Int) = maxcount then .ok (o, ARG_ERR_MAXCOUNT)
  else match argval with
    | none => .ok ({ o with count := o.count + 1 }, 0)
    | some a => do
      match ← rexCompile pattern with
      | none => .error (.ub "trex_match: NULL pointer dereference")
      | some nodes => do
        if ← rexMatch nodes icase a then
          let sval ← storeAt o.sval o.count a
          .ok ({ count := o.count + 1, sval := sval }, 0)
        else .ok (o, ARG_ERR_REGNOMATCH)

end Argtable
