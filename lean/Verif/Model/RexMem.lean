import Verif.Model.Rex
import Verif.Model.Dstr
/-!
# arg_rex at work: captures and memory

`Model/Rex.lean` leaves out what `arg_rex_scanfn` does besides deciding: the captures that `trex_matchnode`
records in the array `_matches`, and the four blocks of memory of a compiled expression.  Here the same functions
are given with both.

Simplification: `xrealloc` in `trex_newnode` (arg_rex.c:379-382) keeps the identity of the block: the only pointer
to it, `exp->_nodes`, is replaced by the result.
-/

namespace Argtable

/-! ### Blocks of memory -/

/-- `xmalloc(n)`, arg_utils.c:82-88: address and heap. -/
def heapMalloc (n : Nat) (heap : Heap) : Nat × Heap := (heap.length, heap ++ [some (List.replicate n none)])

/-- `xfree(p)` for a pointer that is not NULL, arg_utils.c:109-111. -/
def heapFree (a : Nat) (heap : Heap) : M Heap :=
  match heap[a]? with
  | some (some _) => .ok (heap.set a none)
  | _ => .error (.ub "free of a block that is not allocated")

/-- An access to the block `a`.  (as through `exp` in arg_rex.c:372-980.) -/
def heapTouch (a : Nat) (heap : Heap) : M Unit :=
  match heap[a]? with
  | some (some _) => .ok ()
  | _ => .error (.ub "access to a block that is not allocated")

/-! ### Captures -/

/-- `TRexMatch`, arg_rex.c:94-97: `begin` (NULL is `none`) and `len`. -/
structure RCap where
  beg : Option Nat := none
  len : Int := 0
deriving DecidableEq, Repr

/-- `_matches` and `_currsubexp`.  (arg_rex.c:363-364.) -/
structure MState where
  caps : List RCap
  curr : Nat
deriving DecidableEq, Repr

/-- `exp->_matches[i] = c`.  (arg_rex.c:751-900.) -/
def setCap (i : Nat) (c : RCap) (s : MState) : M MState :=
  if i < s.caps.length then .ok { s with caps := s.caps.set i c }
  else .error (.ub "capture outside the array")

/-- `exp->_matches[i].begin`.  (arg_rex.c:751-900.) -/
def getCap (i : Nat) (s : MState) : M RCap :=
  match s.caps[i]? with
  | some c => .ok c
  | none => .error (.ub "capture outside the array")

/-- The type of `trex_matchnode` with the captures.  (arg_rex.c:751.) -/
abbrev MatcherC := Int → Nat → Option Int → MState → M (Option Nat × MState)

/-- Does what follows a greedy node match here?  arg_rex.c:773-783. -/
def greedyStopTestC (nodes : List RNode) (m : MatcherC) (greedystop next : Option Int) (s : Nat) (c : MState) :
    M (Bool × MState) :=
  match greedystop with
  | none => .ok (false, c)
  | some g => do
    let gn ← nodeAt nodes g
    if gn.type ≠ .greedy ∨ gn.p0 ≠ 0 then do
      let gnext ← greedyNext nodes gn next
      let (stop, c) ← m g s gnext c
      .ok (stop.isSome, c)
    else .ok (false, c)

/-- The loop of `OP_GREEDY`, arg_rex.c:766-797. -/
def greedyLoopC (nodes : List RNode) (eol : Nat) (m : MatcherC) (p0 p1 : Nat) (left : Int)
    (greedystop next : Option Int) : (k : Nat) → (nm s good : Nat) → MState → M ((Nat × Nat) × MState)
  | 0, _, _, _, _ => .error .fuel
  | k + 1, nm, s, good, c =>
    if nm = 65535 ∨ nm < p1 then do
      match ← m left s greedystop c with
      | (none, c) => .ok ((nm, good), c)
      | (some s, c) => do
        let nm := nm + 1
        let (stop, c) ← greedyStopTestC nodes m greedystop next s c
        if stop ∧ greedyOk p0 p1 nm then .ok ((nm, s), c)
        else if s ≥ eol then .ok ((nm, s), c)
        else greedyLoopC nodes eol m p0 p1 left greedystop next k nm s s c
    else .ok ((nm, good), c)

/-- One alternative of `OP_OR`, arg_rex.c:810-815 and 818-823. -/
def orChainC (nodes : List RNode) (m : MatcherC) : (k : Nat) → (temp : Int) → (s : Nat) → MState →
    M (Option Nat × MState)
  | 0, _, _, _ => .error .fuel
  | k + 1, temp, s, c => do
    match ← m temp s none c with
    | (none, c) => .ok (none, c)
    | (some s, c) => do
      let n ← nodeAt nodes temp
      if n.next ≠ -1 then orChainC nodes m k n.next s c else .ok (some s, c)

/-- The loop of `OP_EXPR`, arg_rex.c:838-852, without the captures. -/
def exprChainC (nodes : List RNode) (m : MatcherC) (next : Option Int) :
    (k : Nat) → (n : Int) → (s : Nat) → MState → M (Option Nat × MState)
  | 0, _, _, _ => .error .fuel
  | k + 1, i, s, c => do
    let n ← nodeAt nodes i
    let subnext := if n.next ≠ -1 then some n.next else next
    match ← m i s subnext c with
    | (none, c) => .ok (none, c)
    | (some s, c) => if n.next ≠ -1 then exprChainC nodes m next k n.next s c else .ok (some s, c)

/-- `OP_EXPR` and `OP_NOCAPEXPR` with their captures, arg_rex.c:827-857. -/
def exprC (nodes : List RNode) (m : MatcherC) (node : RNode) (next : Option Int) (str : Nat) (c : MState) :
    M (Option Nat × MState) := do
  if node.type ≠ .nocap ∧ node.right = c.curr then do
    let capture := c.curr
    let old ← getCap capture c
    let c ← setCap capture { old with beg := some str } c
    let c := { c with curr := c.curr + 1 }
    let (r, c) ← exprChainC nodes m next (nodes.length + 1) node.left str c
    match r with
    | none => do
      let c ← setCap capture {} c
      .ok (none, c)
    | some cur => do
      let old ← getCap capture c
      let c ← setCap capture { old with len := (cur : Int) - (old.beg.getD 0 : Nat) } c
      .ok (some cur, c)
  else exprChainC nodes m next (nodes.length + 1) node.left str c

/-- `trex_matchnode`, arg_rex.c:751-900, with the captures. -/
def matchnodeC (nodes : List RNode) (icase : Bool) (text : CStr) : (fuel : Nat) → MatcherC
  | 0, _, _, _, _ => .error .fuel
  | fuel + 1, i, str, next, c => do
    let node ← nodeAt nodes i
    let m := matchnodeC nodes icase text fuel
    match node.type with
    | .greedy => do
      let greedystop := if node.next ≠ -1 then some node.next else next
      let ((nm, good), c) ← greedyLoopC nodes text.length m node.p0 node.p1 node.left greedystop next
        65537 0 str str c
      if greedyOk node.p0 node.p1 nm then .ok (some good, c) else .ok (none, c)
    | .or => do
      match ← orChainC nodes m (nodes.length + 1) node.left str c with
      | (some s, c) => .ok (some s, c)
      | (none, c) => orChainC nodes m (nodes.length + 1) node.right str c
    | .expr | .nocap => exprC nodes m node next str c
    | .wb => do
      let b ← wordBoundary text str
      if b then .ok (if intChar node.left = 'b' then some str else none, c)
      else .ok (if intChar node.left = 'b' then none else some str, c)
    | .bol => .ok (if str = 0 then some str else none, c)
    | .eol => .ok (if str = text.length then some str else none, c)
    | .dot => .ok (some (str + 1), c)
    | .ncls => do
      let ch ← textAt text str
      let b ← matchclass nodes icase ch (nodes.length + 1) node.left
      .ok (if b then none else some (str + 1), c)
    | .cls => do
      let ch ← textAt text str
      let b ← matchclass nodes icase ch (nodes.length + 1) node.left
      .ok (if b then some (str + 1) else none, c)
    | .ccls => do
      let ch ← textAt text str
      .ok (if matchcclass (intChar node.left) ch then some (str + 1) else none, c)
    | .range => .ok (none, c)
    | .char d => do
      let ch ← textAt text str
      if icase then
        .ok (if ch ≠ toLower d ∧ ch ≠ toUpper d then none else some (str + 1), c)
      else .ok (if ch ≠ d then none else some (str + 1), c)

/-! ### The compiled expression in memory -/

/-- A `TRex` object: the addresses of the object itself and of its three blocks, and their contents as far as
they matter.  (arg_rex.c:353-368.) -/
structure RexObj where
  self : Nat
  nodesBlk : Nat
  jmpbuf : Nat
  matchesBlk : Nat
  nodes : List RNode
  nsub : Nat

/-- `trex_list` and the test for the end of the pattern, arg_rex.c:914-917: nodes and `_nsubexpr`. -/
def compileNodes (pattern : CStr) : RM (List RNode × Nat) := do
  let (first, s) ← newnode .expr ⟨pattern, [], pattern.length, 0⟩
  let (res, s) ← rexList (2 * pattern.length + 2) s
  let s := s.setLeft first res
  if s.p ≠ [] then .error (.bad "unexpected character") else .ok (s.nodes, s.nsub)

/-- `trex_compile`, arg_rex.c:903-943, with its memory.  `sizeof(TRex)`, `sizeof(TRexNode)`, `sizeof(jmp_buf)` and
`sizeof(TRexMatch)` are those of x86-64 Linux; they do not matter. -/
def rexCompileMem (pattern : CStr) (heap : Heap) : M (Option RexObj × Heap) := do
  let (self, heap) := heapMalloc 96 heap
  let (nodesBlk, heap) := heapMalloc (pattern.length * 16) heap
  let (jmpbuf, heap) := heapMalloc 200 heap
  match compileNodes pattern with
  | .ok (nodes, nsub) =>
    let (matchesBlk, heap) := heapMalloc (nsub * 16) heap
    .ok (some { self, nodesBlk, jmpbuf, matchesBlk, nodes, nsub }, heap)
  | .error (.bad _) => do
    -- `trex_free(exp)`, where `_matches` is NULL
    let heap ← heapFree nodesBlk heap
    let heap ← heapFree jmpbuf heap
    let heap ← heapFree self heap
    .ok (none, heap)
  | .error (.fault f) => .error f

/-- `trex_free`, arg_rex.c:945-952. -/
def rexFree (r : Option RexObj) (heap : Heap) : M Heap :=
  match r with
  | none => .ok heap
  | some r => do
    let _ ← heapTouch r.self heap
    let heap ← heapFree r.nodesBlk heap
    let heap ← heapFree r.jmpbuf heap
    let heap ← heapFree r.matchesBlk heap
    heapFree r.self heap

/-- `trex_match`, arg_rex.c:954-963. -/
def rexMatchMem (r : RexObj) (icase : Bool) (text : CStr) (heap : Heap) : M Bool := do
  let _ ← heapTouch r.self heap
  let _ ← heapTouch r.nodesBlk heap
  let _ ← heapTouch r.matchesBlk heap
  let (m, _) ← matchnodeC r.nodes icase text ((r.nodes.length + 1) * (r.nodes.length + 1)) 0 0 none
    { caps := List.replicate r.nsub {}, curr := 0 }
  .ok (m = some text.length)

/-- `arg_rex_scanfn`, arg_rex.c:130-162. -/
def rexScanMem (pattern : CStr) (icase : Bool) (maxcount : Int) (o : StrObj) (argval : Option CStr) (heap : Heap) :
    M ((StrObj × Int) × Heap) :=
  if (o.count : Int) = maxcount then .ok ((o, ARG_ERR_MAXCOUNT), heap)
  else match argval with
    | none => .ok (({ o with count := o.count + 1 }, 0), heap)
    | some a => do
      let (rex, heap) ← rexCompileMem pattern heap
      match rex with
      | none => .error (.ub "trex_match: NULL pointer dereference")
      | some r => do
        if ← rexMatchMem r icase a heap then
          let sval ← storeAt o.sval o.count a
          let heap ← rexFree rex heap
          .ok (({ count := o.count + 1, sval := sval }, 0), heap)
        else do
          let heap ← rexFree rex heap
          .ok ((o, ARG_ERR_REGNOMATCH), heap)

/-- The compilation in `arg_rexn` "for no other reason than to force any regex errors", arg_rex.c:276-288: is the
pattern valid? -/
def rexTryMem (pattern : CStr) (heap : Heap) : M (Bool × Heap) := do
  let (rex, heap) ← rexCompileMem pattern heap
  let heap ← rexFree rex heap
  .ok (rex.isSome, heap)

end Argtable
