import Verif.Base

/-!
# Model of src/arg_hashtable.c

The table is modelled at pointer level.  Entries live in a memory `mem` indexed by addresses
(`none` = not allocated or freed); `table` holds the bucket heads and each entry its `next` pointer.
Following a pointer to a freed entry, indexing the bucket array out of bounds and `% 0` are faults.
`xmalloc` returns an address that was never used before and never fails (arg_utils.c:82-90 ends the
process when it does).

`void*` keys and values are modelled by arbitrary types `κ` and `ν`; `ν` has no null pointer, so
"NULL" as a result of `arg_hashtable_search` always means "not found".  The blocks that the table
passes to `xfree` for keys and values are recorded in the log `freed`.
-/

namespace Argtable

/-- `struct arg_hashtable_entry` (argtable3_private.h:113-117). -/
structure HNode (κ ν : Type) where
  k : κ
  v : ν
  h : UInt32
  next : Option Nat

/-- The functions a table is created with (argtable3_private.h:125-126), and the floating-point
computation `(unsigned)ceil(size * (double)max_load_factor)` of arg_hashtable.c:135 and 170, which
is left as a parameter: nothing that is proved depends on its value. -/
structure HFns (κ : Type) where
  hashfn : κ → UInt32
  eqfn : κ → κ → Bool
  limit : Nat → Nat

/-- `struct arg_hashtable` (argtable3_private.h:119-127) together with the memory of its entries.
`fresh` is the next unused address; `freed` logs the keys and values passed to `xfree`. -/
structure HTab (κ ν : Type) where
  tablelength : Nat
  table : List (Option Nat)
  entrycount : Nat
  loadlimit : Nat
  primeindex : Nat
  mem : Nat → Option (HNode κ ν)
  fresh : Nat
  freed : List (κ ⊕ ν)

variable {κ ν : Type}

/-- arg_hashtable.c:83-85 -/
def primes : List Nat :=
  [53, 97, 193, 389, 769, 1543, 3079, 6151, 12289, 24593, 49157, 98317, 196613, 393241, 786433,
   1572869, 3145739, 6291469, 12582917, 25165843, 50331653, 100663319, 201326611, 402653189,
   805306457, 1610612741]

/-- `enhanced_hash` (arg_hashtable.c:89-100), in 32-bit arithmetic. -/
def enhancedHash (f : HFns κ) (k : κ) : UInt32 :=
  let i := f.hashfn k
  let i := i + ~~~(i <<< 9)
  let i := i ^^^ ((i >>> 14) ||| (i <<< 18))
  let i := i + (i <<< 4)
  i ^^^ ((i >>> 10) ||| (i <<< 22))

/-- `index_for` (arg_hashtable.c:102-104). -/
def indexFor (tablelength : Nat) (h : UInt32) : M Nat :=
  if tablelength = 0 then throw (.ub "remainder by zero") else pure (h.toNat % tablelength)

/-- Reading an entry through a pointer.  (`e->…` in arg_hashtable.c:139-423.) -/
def loadNode (mem : Nat → Option (HNode κ ν)) (a : Nat) : M (HNode κ ν) :=
  match mem a with
  | some n => pure n
  | none => throw (.ub "use of a freed hash table entry")

/-- Writing memory at one address.  (the stores through `e` in arg_hashtable.c:139-423.) -/
def memSet (mem : Nat → Option (HNode κ ν)) (a : Nat) (n : Option (HNode κ ν)) :
    Nat → Option (HNode κ ν) :=
  fun b => if b = a then n else mem b

/-- Reading `table[i]`.  (arg_hashtable.c:139-423.) -/
def tableGet (table : List (Option Nat)) (i : Nat) : M (Option Nat) :=
  match table[i]? with
  | some p => pure p
  | none => throw (.ub "bucket array read out of bounds")

/-- Writing `table[i]`.  (arg_hashtable.c:139-423.) -/
def tableSet (table : List (Option Nat)) (i : Nat) (p : Option Nat) : M (List (Option Nat)) :=
  if i < table.length then pure (table.set i p)
  else throw (.ub "bucket array write out of bounds")

/-- The search for the first prime above `minsize` (arg_hashtable.c:120-125): the final `pindex` and
`size`. -/
def pickPrime (minsize : Nat) : List Nat → Nat → Nat × Nat
  | [], i => (i, 53)
  | p :: ps, i => if p > minsize then (i, p) else pickPrime minsize ps (i + 1)

/-- `arg_hashtable_create` (arg_hashtable.c:106-137).  The result is `none` for NULL. -/
def hashCreate (f : HFns κ) (minsize : Nat) : Option (HTab κ ν) :=
  if minsize > 2 ^ 30 then none
  else
    let (pindex, size) := pickPrime minsize primes 0
    some
      { tablelength := size
        table := List.replicate size none
        entrycount := 0
        loadlimit := f.limit size
        primeindex := pindex
        mem := fun _ => none
        fresh := 0
        freed := [] }

/-- The inner loop of `arg_hashtable_expand` (arg_hashtable.c:159-164) on bucket `i`. -/
def moveChain (newsize i : Nat) :
    Nat → List (Option Nat) → List (Option Nat) → (Nat → Option (HNode κ ν)) →
      M (List (Option Nat) × List (Option Nat) × (Nat → Option (HNode κ ν)))
  | 0, _, _, _ => throw .fuel
  | fuel + 1, table, newtable, mem => do
    match ← tableGet table i with
    | none => pure (table, newtable, mem)
    | some a =>
      let e ← loadNode mem a
      let table ← tableSet table i e.next
      let index ← indexFor newsize e.h
      let head ← tableGet newtable index
      let mem := memSet mem a (some { e with next := head })
      let newtable ← tableSet newtable index (some a)
      moveChain newsize i fuel table newtable mem

/-- The outer loop of `arg_hashtable_expand` (arg_hashtable.c:158-165); the first argument counts the
buckets still to be moved. -/
def moveAll (newsize fuel : Nat) :
    Nat → Nat → List (Option Nat) → List (Option Nat) → (Nat → Option (HNode κ ν)) →
      M (List (Option Nat) × (Nat → Option (HNode κ ν)))
  | 0, _, _, newtable, mem => pure (newtable, mem)
  | n + 1, i, table, newtable, mem => do
    let (table, newtable, mem) ← moveChain newsize i fuel table newtable mem
    moveAll newsize fuel n (i + 1) table newtable mem

/-- `arg_hashtable_expand` (arg_hashtable.c:139-172).  Its return value is ignored by the caller. -/
def hashExpand (f : HFns κ) (t : HTab κ ν) : M (HTab κ ν) :=
  if t.primeindex = primes.length - 1 then pure t
  else
    match primes[t.primeindex + 1]? with
    | none => throw (.ub "read past the table of primes")
    | some newsize => do
      let (newtable, mem) ← moveAll newsize (t.fresh + 1) t.tablelength 0 t.table
        (List.replicate newsize none) t.mem
      pure
        { t with
          primeindex := t.primeindex + 1
          table := newtable
          mem := mem
          tablelength := newsize
          loadlimit := f.limit newsize }

/-- `arg_hashtable_count` (arg_hashtable.c:174-176). -/
def hashCount (t : HTab κ ν) : Nat := t.entrycount

/-- `arg_hashtable_insert` (arg_hashtable.c:178-199).  Simplification: `entrycount` is a natural
number, so the wrap-around of `entrycount + 1` at 2^32 entries is not modelled. -/
def hashInsert (f : HFns κ) (t : HTab κ ν) (k : κ) (v : ν) : M (HTab κ ν) := do
  let t ← if t.entrycount + 1 > t.loadlimit then hashExpand f t else pure t
  let h := enhancedHash f k
  let index ← indexFor t.tablelength h
  let head ← tableGet t.table index
  let table ← tableSet t.table index (some t.fresh)
  pure
    { t with
      table := table
      mem := memSet t.mem t.fresh (some { k := k, v := v, h := h, next := head })
      fresh := t.fresh + 1
      entrycount := t.entrycount + 1 }

/-- The walk along one chain that `arg_hashtable_search` (209-214), `arg_hashtable_remove` (233-245),
`arg_hashtable_itr_search` (390-401) and `arg_hashtable_change` (413-421) share: the first entry with
the same hash value and an equal key, with its predecessor in the chain (`none` when it is the first;
`pE` of `arg_hashtable_remove` is then the bucket slot, and otherwise the `next` field of the
predecessor). -/
def walkChain (f : HFns κ) (mem : Nat → Option (HNode κ ν)) (hashvalue : UInt32) (k : κ) :
    Nat → Option Nat → Option Nat → M (Option (Option Nat × Nat × HNode κ ν))
  | 0, _, _ => throw .fuel
  | _ + 1, _, none => pure none
  | fuel + 1, parent, some a => do
    let e ← loadNode mem a
    if hashvalue == e.h && f.eqfn k e.k then pure (some (parent, a, e))
    else walkChain f mem hashvalue k fuel (some a) e.next

/-- Locating a key: hash, bucket, walk (arg_hashtable.c:206-214, 229-245, 385-401, 410-421).
Returns the bucket index and what the walk found. -/
def hashFind (f : HFns κ) (t : HTab κ ν) (k : κ) :
    M (Nat × Option (Option Nat × Nat × HNode κ ν)) := do
  let hashvalue := enhancedHash f k
  let index ← indexFor t.tablelength hashvalue
  let e ← tableGet t.table index
  let r ← walkChain f t.mem hashvalue k (t.fresh + 1) none e
  pure (index, r)

/-- `arg_hashtable_search` (arg_hashtable.c:201-216). -/
def hashSearch (f : HFns κ) (t : HTab κ ν) (k : κ) : M (Option ν) := do
  match ← hashFind f t k with
  | (_, none) => pure none
  | (_, some (_, _, e)) => pure (some e.v)

/-- Unlinking: the bucket slot or the predecessor's `next` field is overwritten with `next`
(`*pE = e->next`, arg_hashtable.c:236, and 356-362). -/
def unlink (t : HTab κ ν) (index : Nat) (parent : Option Nat) (next : Option Nat) :
    M (HTab κ ν) :=
  match parent with
  | none => do
    let table ← tableSet t.table index next
    pure { t with table := table }
  | some p => do
    let pn ← loadNode t.mem p
    pure { t with mem := memSet t.mem p (some { pn with next := next }) }

/-- `arg_hashtable_remove` (arg_hashtable.c:218-246). -/
def hashRemove (f : HFns κ) (t : HTab κ ν) (k : κ) : M (HTab κ ν) := do
  match ← hashFind f t k with
  | (_, none) => pure t
  | (index, some (parent, a, e)) =>
    let t ← unlink t index parent e.next
    pure
      { t with
        entrycount := t.entrycount - 1
        freed := t.freed ++ [.inl e.k, .inr e.v]
        mem := memSet t.mem a none }

/-- `arg_hashtable_change` (arg_hashtable.c:405-423); returns -1 when the key was found, else 0. -/
def hashChange (f : HFns κ) (t : HTab κ ν) (k : κ) (v : ν) : M (HTab κ ν × Int) := do
  match ← hashFind f t k with
  | (_, none) => pure (t, 0)
  | (_, some (_, a, e)) =>
    pure
      ({ t with
         freed := t.freed ++ [.inr e.v]
         mem := memSet t.mem a (some { e with v := v }) }, -1)

/-- One chain of `arg_hashtable_destroy` (arg_hashtable.c:255-261 and 266-271). -/
def destroyChain (freeValues : Bool) :
    Nat → Option Nat → (Nat → Option (HNode κ ν)) → List (κ ⊕ ν) →
      M ((Nat → Option (HNode κ ν)) × List (κ ⊕ ν))
  | 0, _, _, _ => throw .fuel
  | _ + 1, none, mem, freed => pure (mem, freed)
  | fuel + 1, some a, mem, freed => do
    let f ← loadNode mem a
    let freed := if freeValues then freed ++ [.inl f.k, .inr f.v] else freed ++ [.inl f.k]
    destroyChain freeValues fuel f.next (memSet mem a none) freed

/-- The bucket loops of `arg_hashtable_destroy` (arg_hashtable.c:253-262 and 264-272); the first
argument counts the buckets still to be freed. -/
def destroyAll (freeValues : Bool) (fuel : Nat) (table : List (Option Nat)) :
    Nat → Nat → (Nat → Option (HNode κ ν)) → List (κ ⊕ ν) →
      M ((Nat → Option (HNode κ ν)) × List (κ ⊕ ν))
  | 0, _, mem, freed => pure (mem, freed)
  | n + 1, i, mem, freed => do
    let e ← tableGet table i
    let (mem, freed) ← destroyChain freeValues fuel e mem freed
    destroyAll freeValues fuel table n (i + 1) mem freed

/-- `arg_hashtable_destroy` (arg_hashtable.c:248-276): the memory and the log that are left. -/
def hashDestroy (t : HTab κ ν) (freeValues : Bool) :
    M ((Nat → Option (HNode κ ν)) × List (κ ⊕ ν)) :=
  destroyAll freeValues (t.fresh + 1) t.table t.tablelength 0 t.mem t.freed

/-! ## Iterators -/

/-- `struct arg_hashtable_itr` (argtable3_private.h:212-217).  The field `h` is the table that the
functions below get as a separate argument. -/
structure HItr where
  e : Option Nat
  parent : Option Nat
  index : Nat
deriving DecidableEq, Repr

/-- The loop over the buckets of `arg_hashtable_itr_create` (arg_hashtable.c:291-297) and of
`arg_hashtable_itr_advance` (336-343), from bucket `i` on: the first non-empty bucket.  The first
argument counts the buckets that are left. -/
def firstBucket (table : List (Option Nat)) : Nat → Nat → M (Option (Nat × Nat))
  | 0, _ => pure none
  | n + 1, i => do
    match ← tableGet table i with
    | some a => pure (some (i, a))
    | none => firstBucket table n (i + 1)

/-- `arg_hashtable_itr_create` (arg_hashtable.c:278-299). -/
def itrCreate (t : HTab κ ν) : M HItr :=
  if t.entrycount = 0 then pure { e := none, parent := none, index := t.tablelength }
  else do
    match ← firstBucket t.table t.tablelength 0 with
    | none => pure { e := none, parent := none, index := t.tablelength }
    | some (i, a) => pure { e := some a, parent := none, index := i }

/-- Dereferencing `itr->e`.  (arg_hashtable.c:305-377.) -/
def itrNode (t : HTab κ ν) (it : HItr) : M (HNode κ ν) :=
  match it.e with
  | none => throw (.ub "null iterator entry dereferenced")
  | some a => loadNode t.mem a

/-- `arg_hashtable_itr_key` (arg_hashtable.c:305-307). -/
def itrKey (t : HTab κ ν) (it : HItr) : M κ := do return (← itrNode t it).k

/-- `arg_hashtable_itr_value` (arg_hashtable.c:309-311). -/
def itrValue (t : HTab κ ν) (it : HItr) : M ν := do return (← itrNode t it).v

/-- `arg_hashtable_itr_advance` (arg_hashtable.c:313-348); returns -1 when there is a next entry. -/
def itrAdvance (t : HTab κ ν) (it : HItr) : M (HItr × Int) :=
  match it.e with
  | none => pure (it, 0)
  | some a => do
    let e ← loadNode t.mem a
    match e.next with
    | some b => pure ({ it with e := some b, parent := some a }, -1)
    | none =>
      let j := it.index + 1
      if t.tablelength ≤ j then pure ({ e := none, parent := none, index := j }, 0)
      else
        match ← firstBucket t.table (t.tablelength - j) j with
        | none => pure ({ e := none, parent := none, index := t.tablelength }, 0)
        | some (j, b) => pure ({ e := some b, parent := none, index := j }, -1)

/-- `arg_hashtable_itr_remove` (arg_hashtable.c:350-377). -/
def itrRemove (t : HTab κ ν) (it : HItr) : M (HTab κ ν × HItr × Int) :=
  match it.e with
  | none => throw (.ub "null iterator entry dereferenced")
  | some a => do
    let e ← loadNode t.mem a
    let t ← unlink t it.index it.parent e.next
    let t :=
      { t with
        entrycount := t.entrycount - 1
        freed := t.freed ++ [.inl e.k, .inr e.v] }
    let rememberParent := it.parent
    let (it, ret) ← itrAdvance t it
    let it := if it.parent = some a then { it with parent := rememberParent } else it
    pure ({ t with mem := memSet t.mem a none }, it, ret)

/-- `arg_hashtable_itr_search` (arg_hashtable.c:379-403). -/
def itrSearch (f : HFns κ) (t : HTab κ ν) (it : HItr) (k : κ) : M (HItr × Int) := do
  match ← hashFind f t k with
  | (_, none) => pure (it, 0)
  | (index, some (parent, a, _)) => pure ({ e := some a, parent := parent, index := index }, -1)

end Argtable
