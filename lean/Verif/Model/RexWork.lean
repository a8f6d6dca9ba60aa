import Verif.Model.Rex
/-!
# The matcher of `arg_rex` with a counter

The functions of Model/Rex.lean again, with one addition: the number of times `trex_matchnode` is called.  The count is kept
even if the behaviour becomes undefined.  A call apart from the calls inside it does a bounded amount of work: it looks at
one node, or at the items of one class (`trex_matchclass`).
-/

namespace Argtable

/-- An outcome and the number of calls made.  (the calls of `trex_matchnode`, arg_rex.c:751.) -/
structure Counted (α : Type) where
  out : M α
  calls : Nat

/-- One thing after another.  (the statements of arg_rex.c:751-900.) -/
def Counted.bind {α β : Type} (x : Counted α) (f : α → Counted β) : Counted β :=
  match x.out with
  | .ok a => ⟨(f a).out, x.calls + (f a).calls⟩
  | .error e => ⟨.error e, x.calls⟩

instance : Monad Counted where
  pure a := ⟨.ok a, 0⟩
  bind := Counted.bind

/-- Something that makes no calls.  (such as `trex_matchclass`, arg_rex.c:720-749.) -/
def free {α : Type} (x : M α) : Counted α := ⟨x, 0⟩

/-- A call is made.  (the calls of `trex_matchnode` in arg_rex.c:751-980.) -/
def tick : Counted Unit := ⟨.ok (), 1⟩

/-- `trex_matchnode` as a function of node, position and `next`.  (arg_rex.c:751.) -/
abbrev MatcherN := Int → Nat → Option Int → Counted (Option Nat)

/-- Does what follows a greedy node match here?  arg_rex.c:773-783; see `greedyStopTest`. -/
def greedyStopTestN (nodes : List RNode) (m : MatcherN) (greedystop next : Option Int) (s : Nat) : Counted Bool :=
  match greedystop with
  | none => pure false
  | some g => do
    let gn ← free (nodeAt nodes g)
    if gn.type ≠ .greedy ∨ gn.p0 ≠ 0 then do
      let gnext ← free (greedyNext nodes gn next)
      let stop ← m g s gnext
      pure stop.isSome
    else pure false

/-- The loop of `OP_GREEDY`, arg_rex.c:766-797; see `greedyLoop`. -/
def greedyLoopN (nodes : List RNode) (eol : Nat) (m : MatcherN) (p0 p1 : Nat) (left : Int)
    (greedystop next : Option Int) : (k : Nat) → (nm s good : Nat) → Counted (Nat × Nat)
  | 0, _, _, _ => free (.error .fuel)
  | k + 1, nm, s, good =>
    if nm = 65535 ∨ nm < p1 then do
      match ← m left s greedystop with
      | none => pure (nm, good)
      | some s => do
        let nm := nm + 1
        let stop ← greedyStopTestN nodes m greedystop next s
        if stop ∧ greedyOk p0 p1 nm then pure (nm, s)
        else if s ≥ eol then pure (nm, s)
        else greedyLoopN nodes eol m p0 p1 left greedystop next k nm s s
    else pure (nm, good)

/-- One alternative of `OP_OR`, arg_rex.c:810-815 and 818-823; see `orChain`. -/
def orChainN (nodes : List RNode) (m : MatcherN) : (k : Nat) → (temp : Int) → (s : Nat) → Counted (Option Nat)
  | 0, _, _ => free (.error .fuel)
  | k + 1, temp, s => do
    match ← m temp s none with
    | none => pure none
    | some s => do
      let n ← free (nodeAt nodes temp)
      if n.next ≠ -1 then orChainN nodes m k n.next s else pure (some s)

/-- The loop of `OP_EXPR`, arg_rex.c:838-852; see `exprChain`. -/
def exprChainN (nodes : List RNode) (m : MatcherN) (next : Option Int) :
    (k : Nat) → (n : Int) → (s : Nat) → Counted (Option Nat)
  | 0, _, _ => free (.error .fuel)
  | k + 1, i, s => do
    let n ← free (nodeAt nodes i)
    let subnext := if n.next ≠ -1 then some n.next else next
    match ← m i s subnext with
    | none => pure none
    | some s => if n.next ≠ -1 then exprChainN nodes m next k n.next s else pure (some s)

/-- `trex_matchnode`, arg_rex.c:751-900; see `matchnode`.  Each call counts. -/
def matchnodeN (nodes : List RNode) (icase : Bool) (text : CStr) : (fuel : Nat) → MatcherN
  | 0, _, _, _ => free (.error .fuel)
  | fuel + 1, i, str, next => do
    tick
    let node ← free (nodeAt nodes i)
    let m := matchnodeN nodes icase text fuel
    match node.type with
    | .greedy => do
      let greedystop := if node.next ≠ -1 then some node.next else next
      let (nm, good) ← greedyLoopN nodes text.length m node.p0 node.p1 node.left greedystop next
        65537 0 str str
      if greedyOk node.p0 node.p1 nm then pure (some good) else pure none
    | .or => do
      match ← orChainN nodes m (nodes.length + 1) node.left str with
      | some s => pure (some s)
      | none => orChainN nodes m (nodes.length + 1) node.right str
    | .expr | .nocap => exprChainN nodes m next (nodes.length + 1) node.left str
    | _ =>
      -- the other nodes make no calls: whatever they do, `matchnode` does
      free (matchnode nodes icase text 1 i str next)

/-- `trex_match`, arg_rex.c:954-963; see `rexMatch`. -/
def rexMatchN (nodes : List RNode) (icase : Bool) (text : CStr) : Counted Bool := do
  let r ← matchnodeN nodes icase text ((nodes.length + 1) * (nodes.length + 1)) 0 0 none
  pure (decide (r = some text.length))

/-- `arg_rex_scanfn`, arg_rex.c:130-162; see `rexScan`. -/
def rexScanN (pattern : CStr) (icase : Bool) (maxcount : Int) (o : StrObj) (argval : Option CStr) :
    Counted (StrObj × Int) :=
  if (o.count : Int) = maxcount then pure (o, ARG_ERR_MAXCOUNT)
  else match argval with
    | none => pure ({ o with count := o.count + 1 }, 0)
    | some a => do
      match ← free (rexCompile pattern) with
      | none => free (.error (.ub "trex_match: NULL pointer dereference"))
      | some nodes => do
        if ← rexMatchN nodes icase a then
          let sval ← free (storeAt o.sval o.count a)
          pure ({ count := o.count + 1, sval := sval }, 0)
        else pure (o, ARG_ERR_REGNOMATCH)

end Argtable
