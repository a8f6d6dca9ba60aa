import Verif.Model.Hash

/-!
# Specification vocabulary for the hash table

The abstract value of a table is an association list.  `HCmd` are the operations a client can
perform; `hashExec` runs one on the modelled table, `specExec` on the association list.
-/

namespace Argtable.Spec

open Argtable

variable {κ ν : Type}

/-- The client's functions are usable: `eqfn` is an equivalence and equal keys have equal hashes. -/
structure HashLawful (f : HFns κ) : Prop where
  refl : ∀ a, f.eqfn a a = true
  symm : ∀ a b, f.eqfn a b = true → f.eqfn b a = true
  trans : ∀ a b c, f.eqfn a b = true → f.eqfn b c = true → f.eqfn a c = true
  hash : ∀ a b, f.eqfn a b = true → f.hashfn a = f.hashfn b

/-- The value associated with a key. -/
def lookup (f : HFns κ) (A : List (κ × ν)) (k : κ) : Option ν :=
  (A.find? (fun p => f.eqfn k p.1)).map (·.2)

/-- What a client does to a table.  `sweep p` is the client loop that visits the table with an
iterator and removes the entries satisfying `p` through it. -/
inductive HCmd (κ ν : Type) where
  | insert (k : κ) (v : ν)
  | remove (k : κ)
  | change (k : κ) (v : ν)
  | sweep (p : κ → ν → Bool)

/-- The effect of an operation on the association list. -/
def specExec (f : HFns κ) (A : List (κ × ν)) : HCmd κ ν → List (κ × ν)
  | .insert k v => (k, v) :: A
  | .remove k => A.filter (fun p => !f.eqfn k p.1)
  | .change k v => A.map (fun p => if f.eqfn k p.1 then (p.1, v) else p)
  | .sweep p => A.filter (fun e => !p e.1 e.2)

/-- The effect of a sequence of operations. -/
def specAll (f : HFns κ) (A : List (κ × ν)) (cmds : List (HCmd κ ν)) : List (κ × ν) :=
  cmds.foldl (specExec f) A

/-- The documented restriction: a key is inserted only while it is absent. -/
def Fresh (f : HFns κ) : List (κ × ν) → List (HCmd κ ν) → Prop
  | _, [] => True
  | A, c :: cs =>
    (match c with
      | .insert k _ => lookup f A k = none
      | _ => True) ∧ Fresh f (specExec f A c) cs

/-- The client loop `do { … itr_key … itr_value … } while (itr_advance(itr));`, returning what was
seen.  The first argument bounds the number of rounds. -/
def visitLoop (t : HTab κ ν) : Nat → HItr → M (List (κ × ν))
  | 0, _ => throw .fuel
  | n + 1, it => do
    let k ← itrKey t it
    let v ← itrValue t it
    let (it, r) ← itrAdvance t it
    if r = 0 then pure [(k, v)]
    else
      let rest ← visitLoop t n it
      pure ((k, v) :: rest)

/-- Visiting a table from the start. -/
def visit (t : HTab κ ν) (rounds : Nat) : M (List (κ × ν)) :=
  if hashCount t = 0 then pure []
  else do
    let it ← itrCreate t
    visitLoop t rounds it

/-- The client loop that removes the entries satisfying `p` through the iterator and moves past the
others; it also returns what was seen. -/
def sweepLoop (p : κ → ν → Bool) : Nat → HTab κ ν → HItr → M (HTab κ ν × List (κ × ν))
  | 0, _, _ => throw .fuel
  | n + 1, t, it => do
    let k ← itrKey t it
    let v ← itrValue t it
    let (t, it, r) ←
      if p k v then itrRemove t it
      else do
        let (it, r) ← itrAdvance t it
        pure (t, it, r)
    if r = 0 then pure (t, [(k, v)])
    else do
      let (t, rest) ← sweepLoop p n t it
      pure (t, (k, v) :: rest)

/-- Sweeping a table from the start. -/
def sweep (p : κ → ν → Bool) (t : HTab κ ν) (rounds : Nat) : M (HTab κ ν × List (κ × ν)) :=
  if hashCount t = 0 then pure (t, [])
  else do
    let it ← itrCreate t
    sweepLoop p rounds t it

/-- The effect of an operation on the modelled table. -/
def hashExec (f : HFns κ) (t : HTab κ ν) : HCmd κ ν → M (HTab κ ν)
  | .insert k v => hashInsert f t k v
  | .remove k => hashRemove f t k
  | .change k v => do return (← hashChange f t k v).1
  | .sweep p => do return (← sweep p t (hashCount t)).1

/-- The effect of a sequence of operations on the modelled table. -/
def execCmds (f : HFns κ) : HTab κ ν → List (HCmd κ ν) → M (HTab κ ν)
  | t, [] => pure t
  | t, c :: cs => do execCmds f (← hashExec f t c) cs

/-- The blocks behind a list of entries: one for the key, one for the value. -/
def blocks (A : List (κ × ν)) : List (κ ⊕ ν) := A.flatMap (fun p => [.inl p.1, .inr p.2])

/-- The blocks that the operations hand over to the table: key and value of each insertion, the
value of each change that finds its key. -/
def handed (f : HFns κ) : List (κ × ν) → List (HCmd κ ν) → List (κ ⊕ ν)
  | _, [] => []
  | A, c :: cs =>
    (match c with
      | .insert k v => [.inl k, .inr v]
      | .change k v => if (lookup f A k).isSome then [.inr v] else []
      | _ => []) ++ handed f (specExec f A c) cs

end Argtable.Spec
