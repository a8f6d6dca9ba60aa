import Verif.Model.Cmd

/-!
# What the hash table and the command registry do

The functions of `Model/Hash.lean` and `Model/Cmd.lean` once more, with counters: entries put into another bucket when the table
grows, entries that a search looks at, and calls of `eqfn` (`strcmp` for the registry).
-/

namespace Argtable

variable {κ ν : Type}

/-- The load limit of the library, `(unsigned int)ceil(size * (double)max_load_factor)` (arg_hashtable.c:87, 135 and 170):
`(float)0.65` is 10905190 / 2^24.  The product of this with a size needs up to 55 bits, a `double` has 53: the product is rounded by
less than 4 units of 2^-24.  For the sizes that occur its distance to the next integers is larger (`loadLimit_safe` in
`Props/HashWork.lean`), so the rounding does not matter for `ceil`. -/
def loadLimit (size : Nat) : Nat := (size * 10905190 + (2 ^ 24 - 1)) / 2 ^ 24

/-- The counters.  (for arg_hashtable.c:139-216.) -/
structure HCost where
  /-- entries put into a bucket of a larger table -/
  moved : Nat
  /-- entries that a search looks at -/
  looked : Nat
  /-- calls of `eqfn` -/
  compared : Nat
deriving DecidableEq, Repr

/-- Nothing has been counted; see `HCost` (arg_hashtable.c:139-216). -/
def HCost.zero : HCost := ⟨0, 0, 0⟩

/-- One thing after another; see `HCost` (arg_hashtable.c:139-216). -/
def HCost.plus (a b : HCost) : HCost := ⟨a.moved + b.moved, a.looked + b.looked, a.compared + b.compared⟩

/-- arg_hashtable.c:159-164, with the number of rounds. -/
def moveChainW (newsize i : Nat) :
    Nat → List (Option Nat) → List (Option Nat) → (Nat → Option (HNode κ ν)) →
      M ((List (Option Nat) × List (Option Nat) × (Nat → Option (HNode κ ν))) × Nat)
  | 0, _, _, _ => throw .fuel
  | fuel + 1, table, newtable, mem => do
    match ← tableGet table i with
    | none => pure ((table, newtable, mem), 0)
    | some a =>
      let e ← loadNode mem a
      let table ← tableSet table i e.next
      let index ← indexFor newsize e.h
      let head ← tableGet newtable index
      let mem := memSet mem a (some { e with next := head })
      let newtable ← tableSet newtable index (some a)
      let (r, n) ← moveChainW newsize i fuel table newtable mem
      pure (r, n + 1)

/-- arg_hashtable.c:158-165. -/
def moveAllW (newsize fuel : Nat) :
    Nat → Nat → List (Option Nat) → List (Option Nat) → (Nat → Option (HNode κ ν)) →
      M ((List (Option Nat) × (Nat → Option (HNode κ ν))) × Nat)
  | 0, _, _, newtable, mem => pure ((newtable, mem), 0)
  | n + 1, i, table, newtable, mem => do
    let ((table, newtable, mem), c) ← moveChainW newsize i fuel table newtable mem
    let (r, d) ← moveAllW newsize fuel n (i + 1) table newtable mem
    pure (r, c + d)

/-- `arg_hashtable_expand` (arg_hashtable.c:139-172). -/
def hashExpandW (f : HFns κ) (t : HTab κ ν) : M (HTab κ ν × Nat) :=
  if t.primeindex = primes.length - 1 then pure (t, 0)
  else
    match primes[t.primeindex + 1]? with
    | none => throw (.ub "read past the table of primes")
    | some newsize => do
      let ((newtable, mem), c) ← moveAllW newsize (t.fresh + 1) t.tablelength 0 t.table
        (List.replicate newsize none) t.mem
      pure
        ({ t with
          primeindex := t.primeindex + 1
          table := newtable
          mem := mem
          tablelength := newsize
          loadlimit := f.limit newsize }, c)

/-- `arg_hashtable_insert` (arg_hashtable.c:178-199). -/
def hashInsertW (f : HFns κ) (t : HTab κ ν) (k : κ) (v : ν) : M (HTab κ ν × HCost) := do
  let (t, c) ← if t.entrycount + 1 > t.loadlimit then hashExpandW f t else pure (t, 0)
  let h := enhancedHash f k
  let index ← indexFor t.tablelength h
  let head ← tableGet t.table index
  let table ← tableSet t.table index (some t.fresh)
  pure
    ({ t with
      table := table
      mem := memSet t.mem t.fresh (some { k := k, v := v, h := h, next := head })
      fresh := t.fresh + 1
      entrycount := t.entrycount + 1 }, ⟨c, 0, 0⟩)

/-- The walk along a chain (arg_hashtable.c:209-214, 233-245, 390-401, 413-421): `eqfn` is called only if the hash values are equal
(the operator `&&`). -/
def walkChainW (f : HFns κ) (mem : Nat → Option (HNode κ ν)) (hashvalue : UInt32) (k : κ) :
    Nat → Option Nat → Option Nat → M (Option (Option Nat × Nat × HNode κ ν) × HCost)
  | 0, _, _ => throw .fuel
  | _ + 1, _, none => pure (none, .zero)
  | fuel + 1, parent, some a => do
    let e ← loadNode mem a
    if hashvalue == e.h then
      if f.eqfn k e.k then pure (some (parent, a, e), ⟨0, 1, 1⟩)
      else do
        let (r, c) ← walkChainW f mem hashvalue k fuel (some a) e.next
        pure (r, HCost.plus ⟨0, 1, 1⟩ c)
    else do
      let (r, c) ← walkChainW f mem hashvalue k fuel (some a) e.next
      pure (r, HCost.plus ⟨0, 1, 0⟩ c)

/-- arg_hashtable.c:206-214, 229-245, 385-401, 410-421. -/
def hashFindW (f : HFns κ) (t : HTab κ ν) (k : κ) :
    M ((Nat × Option (Option Nat × Nat × HNode κ ν)) × HCost) := do
  let hashvalue := enhancedHash f k
  let index ← indexFor t.tablelength hashvalue
  let e ← tableGet t.table index
  let (r, c) ← walkChainW f t.mem hashvalue k (t.fresh + 1) none e
  pure ((index, r), c)

/-- `arg_hashtable_search` (arg_hashtable.c:201-216). -/
def hashSearchW (f : HFns κ) (t : HTab κ ν) (k : κ) : M (Option ν × HCost) := do
  match ← hashFindW f t k with
  | ((_, none), c) => pure (none, c)
  | ((_, some (_, _, e)), c) => pure (some e.v, c)

/-- `arg_hashtable_remove` (arg_hashtable.c:218-246). -/
def hashRemoveW (f : HFns κ) (t : HTab κ ν) (k : κ) : M (HTab κ ν × HCost) := do
  match ← hashFindW f t k with
  | ((_, none), c) => pure (t, c)
  | ((index, some (parent, a, e)), c) =>
    let t ← unlink t index parent e.next
    pure
      ({ t with
        entrycount := t.entrycount - 1
        freed := t.freed ++ [.inl e.k, .inr e.v]
        mem := memSet t.mem a none }, c)

variable {P C : Type}

/-- `arg_cmd_register` (arg_cmd.c:132-174). -/
def cmdRegisterW (limit : Nat → Nat) (r : Registry P C) (name : CStr) (proc : Option P)
    (description : CStr) (ctx : C) : M (Registry P C × HCost) := do
  if ¬ name.length < ARG_CMD_NAME_LEN then throw (.ub "assertion: name too long") else
  if ¬ description.length < ARG_CMD_DESCRIPTION_LEN then throw (.ub "assertion: description too long") else
  let t ← r.get
  let (info, c1) ← hashSearchW (cmdFns limit) t name
  let (t, c2) ← if info.isSome then hashRemoveW (cmdFns limit) t name else pure (t, .zero)
  let (t, c3) ← hashInsertW (cmdFns limit) t name
    { name := name, description := description, proc := proc, ctx := ctx }
  pure (.table t, (c1.plus c2).plus c3)

/-- `arg_cmd_unregister` (arg_cmd.c:176-178). -/
def cmdUnregisterW (limit : Nat → Nat) (r : Registry P C) (name : CStr) : M (Registry P C × HCost) := do
  let t ← r.get
  let (t, c) ← hashRemoveW (cmdFns limit) t name
  pure (.table t, c)

/-- `arg_cmd_info` (arg_cmd.c:189-191); `arg_cmd_dispatch` (180-187) calls it once. -/
def cmdInfoW (limit : Nat → Nat) (r : Registry P C) (name : CStr) : M (Option (CmdInfo P C) × HCost) := do
  let t ← r.get
  hashSearchW (cmdFns limit) t name

end Argtable
