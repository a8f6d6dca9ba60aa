import Verif.Proofs.Cmd

/-!
# The hash table and the command registry (C39, C40, C41, C52)
-/

namespace Argtable

open Spec

variable {κ ν P C : Type}

/-- A lawful table whose keys all collide and which grows at every second insertion. -/
def collide : HFns Nat := { hashfn := fun _ => 7, eqfn := fun a b => a == b, limit := fun _ => 1 }

example : HashLawful collide where
  refl := by simp [collide]
  symm := by simp [collide]
  trans := by simp [collide]
  hash := by simp [collide]

/-- An example history: insertions, a removal, a change, a sweep, a re-insertion. -/
def demoHash : List (HCmd Nat Nat) :=
  [.insert 1 10, .insert 2 20, .insert 3 30, .remove 2, .change 3 33, .insert 4 40,
   .sweep (fun k _ => k == 1), .insert 2 22]

/-! ## C39 -/

/-- **C39.** A table is created unless more than 2^30 buckets are asked for. -/
theorem C39_create (f : HFns κ) (minsize : Nat) :
    (hashCreate f minsize : Option (HTab κ ν)).isSome ↔ minsize ≤ 2 ^ 30 := by
  constructor
  · intro h
    by_contra hc
    unfold hashCreate at h
    rw [if_pos (by omega)] at h
    simp at h
  · intro h
    obtain ⟨t, e, _⟩ := TabInv.create (ν := ν) f h
    rw [e]
    rfl

/-- **C39.** Whatever is done to a table (insertions of absent keys, removals, changes, removals
through an iterator, in any order, with any growth in between), no step goes wrong, every search
returns the value last associated with the key and the count is the number of keys. -/
theorem C39_map {f : HFns κ} (hf : HashLawful f) {minsize : Nat} {t0 : HTab κ ν}
    (h0 : hashCreate f minsize = some t0) {cmds : List (HCmd κ ν)} (hc : Fresh f [] cmds) :
    ∃ t, execCmds f t0 cmds = .ok t ∧
      (∀ k, hashSearch f t k = .ok (lookup f (specAll f [] cmds) k)) ∧
      hashCount t = (specAll f [] cmds).length := by
  have hm : minsize ≤ 2 ^ 30 := (C39_create (ν := ν) f minsize).mp (by rw [h0]; rfl)
  obtain ⟨t0', e, h, _⟩ := TabInv.create (ν := ν) f hm
  rw [h0] at e
  cases e
  obtain ⟨t, B, fr, g1, g2, _, _⟩ := TabInv.cmds hf cmds t0 _ [] h hc
  exact ⟨t, g1, fun k => g2.search hf k, g2.cnt⟩

example : Fresh collide ([] : List (Nat × Nat)) demoHash := by
  simp [demoHash, Fresh, specExec, lookup, collide]

example : ((hashCreate collide 0 : Option (HTab Nat Nat)).map (fun t0 => do
    let t ← execCmds collide t0 demoHash
    pure (← hashSearch collide t 2, ← hashSearch collide t 1, ← hashSearch collide t 3, hashCount t,
      t.tablelength))) = some (.ok (some 22, none, some 33, 3, 769)) := by decide +kernel

/-- **C39.** `arg_hashtable_change` tells whether the key was there. -/
theorem C39_change {f : HFns κ} (hf : HashLawful f) {minsize : Nat} {t0 t : HTab κ ν}
    (h0 : hashCreate f minsize = some t0) {cmds : List (HCmd κ ν)} (hc : Fresh f [] cmds)
    (ht : execCmds f t0 cmds = .ok t) (k : κ) (v : ν) :
    ∃ t', hashChange f t k v =
      .ok (t', if (lookup f (specAll f [] cmds) k).isSome then -1 else 0) := by
  have hm : minsize ≤ 2 ^ 30 := (C39_create (ν := ν) f minsize).mp (by rw [h0]; rfl)
  obtain ⟨t0', e, h, _⟩ := TabInv.create (ν := ν) f hm
  rw [h0] at e
  cases e
  obtain ⟨t', B, fr, g1, g2, _, _⟩ := TabInv.cmds hf cmds t0 _ [] h hc
  rw [ht] at g1
  cases g1
  obtain ⟨t2, fr2, e1, _⟩ := g2.change hf k v
  exact ⟨t2, e1⟩

/-- The restriction to absent keys is needed: with a key inserted twice, growth changes which of the
two values a search finds. -/
theorem C39_duplicates :
    ((hashCreate { collide with limit := fun n => if n = 53 then 2 else 9 } 0 : Option (HTab Nat Nat)).map
      (fun t0 => do
        let f : HFns Nat := { collide with limit := fun n => if n = 53 then 2 else 9 }
        let t ← execCmds f t0 [.insert 1 10, .insert 1 11]
        let t' ← execCmds f t0 [.insert 1 10, .insert 1 11, .insert 2 20]
        pure (← hashSearch f t 1, ← hashSearch f t' 1))) = some (.ok (some 11, some 10)) := by
  decide +kernel

/-! ## C40 -/

/-- **C40.** The iteration loop over any table ends and sees every entry exactly once: what it saw is
a permutation of the contents. -/
theorem C40_visit {f : HFns κ} (hf : HashLawful f) {minsize : Nat} {t0 t : HTab κ ν}
    (h0 : hashCreate f minsize = some t0) {cmds : List (HCmd κ ν)} (hc : Fresh f [] cmds)
    (ht : execCmds f t0 cmds = .ok t) {rounds : Nat} (hr : hashCount t ≤ rounds) :
    ∃ seen, visit t rounds = .ok seen ∧ seen.Perm (specAll f [] cmds) := by
  have hm : minsize ≤ 2 ^ 30 := (C39_create (ν := ν) f minsize).mp (by rw [h0]; rfl)
  obtain ⟨t0', e, h, _⟩ := TabInv.create (ν := ν) f hm
  rw [h0] at e
  cases e
  obtain ⟨t', B, fr, g1, g2, _, _⟩ := TabInv.cmds hf cmds t0 _ [] h hc
  rw [ht] at g1
  cases g1
  exact g2.visit hf (by rw [← g2.cnt]; exact hr)

example : ((hashCreate collide 0 : Option (HTab Nat Nat)).map (fun t0 => do
    let t ← execCmds collide t0 demoHash
    visit t 3)) = some (.ok [(2, 22), (3, 33), (4, 40)]) := by decide +kernel

/-- **C40.** The iteration loop that removes the entries satisfying `p` through the iterator sees
every entry exactly once, and afterwards exactly the others are left. -/
theorem C40_remove {f : HFns κ} (hf : HashLawful f) {minsize : Nat} {t0 t : HTab κ ν}
    (h0 : hashCreate f minsize = some t0) {cmds : List (HCmd κ ν)} (hc : Fresh f [] cmds)
    (ht : execCmds f t0 cmds = .ok t) (p : κ → ν → Bool) {rounds : Nat} (hr : hashCount t ≤ rounds) :
    ∃ t' seen, sweep p t rounds = .ok (t', seen) ∧ seen.Perm (specAll f [] cmds) ∧
      (∀ k, hashSearch f t' k =
        .ok (lookup f ((specAll f [] cmds).filter (fun e => !p e.1 e.2)) k)) ∧
      hashCount t' = ((specAll f [] cmds).filter (fun e => !p e.1 e.2)).length := by
  have hm : minsize ≤ 2 ^ 30 := (C39_create (ν := ν) f minsize).mp (by rw [h0]; rfl)
  obtain ⟨t0', e, h, _⟩ := TabInv.create (ν := ν) f hm
  rw [h0] at e
  cases e
  obtain ⟨t', B, fr, g1, g2, _, _⟩ := TabInv.cmds hf cmds t0 _ [] h hc
  rw [ht] at g1
  cases g1
  obtain ⟨t2, B2, vs, fr2, e1, e2, e3, _, _⟩ := g2.sweep hf p (fuel := rounds) (by rw [← g2.cnt]; exact hr)
  exact ⟨t2, vs, e1, e2, fun k => e3.search hf k, e3.cnt⟩

example : ((hashCreate collide 0 : Option (HTab Nat Nat)).map (fun t0 => do
    let t ← execCmds collide t0 demoHash
    let (t, seen) ← sweep (fun k _ => k == 4) t 3
    pure (seen, hashCount t, ← hashSearch collide t 4))) =
      some (.ok ([(2, 22), (3, 33), (4, 40)], 2, none)) := by decide +kernel

/-- **C40.** `arg_hashtable_itr_search` finds a key exactly when it is there.  The iterator then stands
at that entry, and removing it through the iterator removes that key and nothing else. -/
theorem C40_search {f : HFns κ} (hf : HashLawful f) {minsize : Nat} {t0 t : HTab κ ν}
    (h0 : hashCreate f minsize = some t0) {cmds : List (HCmd κ ν)} (hc : Fresh f [] cmds)
    (ht : execCmds f t0 cmds = .ok t) (it : HItr) (k : κ) :
    (lookup f (specAll f [] cmds) k = none ∧ itrSearch f t it k = .ok (it, 0)) ∨
    (∃ it' k' v t' it'' r, lookup f (specAll f [] cmds) k = some v ∧ f.eqfn k k' = true ∧
      itrSearch f t it k = .ok (it', -1) ∧ itrKey t it' = .ok k' ∧ itrValue t it' = .ok v ∧
      itrRemove t it' = .ok (t', it'', r) ∧
      ∀ j, hashSearch f t' j = .ok (if f.eqfn k j then none else lookup f (specAll f [] cmds) j)) := by
  have hm : minsize ≤ 2 ^ 30 := (C39_create (ν := ν) f minsize).mp (by rw [h0]; rfl)
  obtain ⟨t0', e, h, _⟩ := TabInv.create (ν := ν) f hm
  rw [h0] at e
  cases e
  obtain ⟨t', B, fr, g1, g2, _, _⟩ := TabInv.cmds hf cmds t0 _ [] h hc
  rw [ht] at g1
  cases g1
  rcases g2.itrSearch hf it k with h1 | ⟨a, n, it', rest, e1, e2, e3, e4, e5⟩
  · exact Or.inl h1
  · right
    obtain ⟨n', k1, k2, k3⟩ := g2.current e5
    rw [e2] at k1
    cases k1
    obtain ⟨t2, it2, r, B2, q1, _, _, q2, _, _⟩ := g2.itrRemove hf e5 e2
    refine ⟨it', n.k, n.v, t2, it2, r, e4, e3, e1, k2, k3, q1, ?_⟩
    intro j
    rw [q2.search hf]
    congr 1
    unfold lookup
    rw [List.find?_filter]
    by_cases hkj : f.eqfn k j = true
    · rw [if_pos hkj]
      rw [List.find?_eq_none.mpr]
      · rfl
      · intro p _ hp
        simp only [Bool.and_eq_true, Bool.not_eq_true', decide_eq_true_eq] at hp
        have := hf.trans _ _ _ (hf.symm _ _ e3) (hf.trans _ _ _ hkj hp.2)
        rw [this] at hp
        exact absurd hp.1 (by simp)
    · rw [if_neg hkj]
      congr 1
      congr 1
      funext p
      cases hjp : f.eqfn j p.1 with
      | false => simp
      | true =>
        have : f.eqfn n.k p.1 = false := by
          cases hc : f.eqfn n.k p.1 with
          | false => rfl
          | true =>
            exact absurd (hf.trans _ _ _ e3 (hf.trans _ _ _ hc (hf.symm _ _ hjp))) hkj
        simp [this]

/-! ## C52 -/

/-- **C52.** The table accounts for every block handed to it: at any time, the keys and values handed
over so far are those it has freed together with those it holds. -/
theorem C52_ledger {f : HFns κ} (hf : HashLawful f) {minsize : Nat} {t0 t : HTab κ ν}
    (h0 : hashCreate f minsize = some t0) {cmds : List (HCmd κ ν)} (hc : Fresh f [] cmds)
    (ht : execCmds f t0 cmds = .ok t) :
    (handed f [] cmds).Perm (t.freed ++ blocks (specAll f [] cmds)) := by
  have hm : minsize ≤ 2 ^ 30 := (C39_create (ν := ν) f minsize).mp (by rw [h0]; rfl)
  obtain ⟨t0', e, h, hfr⟩ := TabInv.create (ν := ν) f hm
  rw [h0] at e
  cases e
  obtain ⟨t', B, fr, g1, g2, g3, g4⟩ := TabInv.cmds hf cmds t0 _ [] h hc
  rw [ht] at g1
  cases g1
  rw [hfr, List.nil_append] at g3
  rw [g3]
  exact g4

/-- **C52.** Destroying a table with its values frees every entry, and by then every key and value
handed over has been freed exactly once. -/
theorem C52_destroy {f : HFns κ} (hf : HashLawful f) {minsize : Nat} {t0 t : HTab κ ν}
    (h0 : hashCreate f minsize = some t0) {cmds : List (HCmd κ ν)} (hc : Fresh f [] cmds)
    (ht : execCmds f t0 cmds = .ok t) :
    ∃ mem freed, hashDestroy t true = .ok (mem, freed) ∧ (∀ a, mem a = none) ∧
      freed.Perm (handed f [] cmds) := by
  have hl := C52_ledger hf h0 hc ht
  have hm : minsize ≤ 2 ^ 30 := (C39_create (ν := ν) f minsize).mp (by rw [h0]; rfl)
  obtain ⟨t0', e, h, hfr⟩ := TabInv.create (ν := ν) f hm
  rw [h0] at e
  cases e
  obtain ⟨t', B, fr, g1, g2, g3, g4⟩ := TabInv.cmds hf cmds t0 _ [] h hc
  rw [ht] at g1
  cases g1
  obtain ⟨mem, fr2, e1, e2, e3⟩ := g2.destroy hf true
  exact ⟨mem, _, e1, e2, (List.Perm.append_left _ e3).trans hl.symm⟩

/-- **C52.** Destroying a table without its values frees every entry and every key that was still in
the table, and no value. -/
theorem C52_destroy_keys {f : HFns κ} (hf : HashLawful f) {minsize : Nat} {t0 t : HTab κ ν}
    (h0 : hashCreate f minsize = some t0) {cmds : List (HCmd κ ν)} (hc : Fresh f [] cmds)
    (ht : execCmds f t0 cmds = .ok t) :
    ∃ mem more, hashDestroy t false = .ok (mem, t.freed ++ more) ∧ (∀ a, mem a = none) ∧
      more.Perm ((specAll f [] cmds).map (fun e => Sum.inl e.1)) := by
  have hm : minsize ≤ 2 ^ 30 := (C39_create (ν := ν) f minsize).mp (by rw [h0]; rfl)
  obtain ⟨t0', e, h, hfr⟩ := TabInv.create (ν := ν) f hm
  rw [h0] at e
  cases e
  obtain ⟨t', B, fr, g1, g2, g3, g4⟩ := TabInv.cmds hf cmds t0 _ [] h hc
  rw [ht] at g1
  cases g1
  obtain ⟨mem, fr2, e1, e2, e3⟩ := g2.destroy hf false
  exact ⟨mem, fr2, e1, e2, e3⟩

example : handed collide ([] : List (Nat × Nat)) demoHash =
    [.inl 1, .inr 10, .inl 2, .inr 20, .inl 3, .inr 30, .inr 33, .inl 4, .inr 40, .inl 2, .inr 22] := by
  decide +kernel

example : ((hashCreate collide 0 : Option (HTab Nat Nat)).map (fun t0 => do
    let t ← execCmds collide t0 demoHash
    pure t.freed)) = some (.ok [.inl 2, .inr 20, .inr 30, .inl 1, .inr 10]) := by decide +kernel

/-! ## C41 -/

/-- **C41.** After any history of registrations and unregistrations, `arg_cmd_info` returns what the
latest event about the name registered, and `arg_cmd_count` is the number of registered names. -/
theorem C41_info (limit : Nat → Nat) {evs : List (CmdEvent P C)} (hfit : ∀ e ∈ evs, e.fits) :
    ∃ r, runEvents limit (cmdInit limit) evs = .ok r ∧ (∀ name, cmdInfo limit r name = .ok (latest evs name)) ∧
      cmdCount r = .ok (registered evs).length := by
  obtain ⟨r, e1, t, B, A, rfl, e2, e3⟩ := RegInv.run evs (cmdInit limit) [] (RegInv.init limit) hfit
  rw [List.nil_append] at e3
  refine ⟨_, e1, ?_, ?_⟩
  · intro name
    show ((.ok t : M _) >>= fun t => hashSearch (cmdFns limit) t name) = _
    rw [hbind_ok, e2.search (cmdFns_lawful limit), e3]
  · show (.ok (hashCount t) : M Nat) = _
    congr 1
    unfold hashCount
    rw [e2.cnt, ← (RegInv.keys e2 e3).length_eq, List.length_map]

/-- **C41.** `arg_cmd_dispatch` calls the procedure of the latest registration with its context. -/
theorem C41_dispatch (limit : Nat → Nat) {evs : List (CmdEvent P C)} (hfit : ∀ e ∈ evs, e.fits)
    {r : Registry P C} (hr : runEvents limit (cmdInit limit) evs = .ok r) {name : CStr} {i : CmdInfo P C}
    (hi : latest evs name = some i) {p : P} (hp : i.proc = some p) :
    cmdDispatch limit r name = .ok (p, i.ctx) := by
  obtain ⟨r', e1, e2, _⟩ := C41_info limit hfit
  rw [hr] at e1
  cases e1
  unfold cmdDispatch
  rw [e2, hi, hbind_ok]
  dsimp only
  rw [hp]
  rfl

/-- **C41.** Iterating over the registry lists every registered name exactly once, each with its
latest registration. -/
theorem C41_iterate (limit : Nat → Nat) {evs : List (CmdEvent P C)} (hfit : ∀ e ∈ evs, e.fits)
    {r : Registry P C} (hr : runEvents limit (cmdInit limit) evs = .ok r) {rounds : Nat}
    (hn : (registered evs).length ≤ rounds) :
    ∃ seen, cmdVisit r rounds = .ok seen ∧ (seen.map (·.1)).Perm (registered evs) ∧
      ∀ e ∈ seen, latest evs e.1 = some e.2 := by
  obtain ⟨r', e1, t, B, A, rfl, e2, e3⟩ := RegInv.run evs (cmdInit limit) [] (RegInv.init limit) hfit
  rw [hr] at e1
  cases e1
  rw [List.nil_append] at e3
  have hk := RegInv.keys e2 e3
  obtain ⟨seen, g1, g2⟩ := e2.visit (cmdFns_lawful limit) (fuel := rounds)
    (by rw [← List.length_map (·.1), hk.length_eq]; exact hn)
  refine ⟨seen, g1, (g2.map _).trans hk, ?_⟩
  intro e he
  rw [← e3]
  exact (lookup_mem e2 e.1 e.2).mp (g2.mem_iff.mp he)

/-- Using the registry after `arg_cmd_uninit` is a use of freed memory: the table's variable is not
cleared.  Before `arg_cmd_init` it is a null pointer. -/
theorem C41_after_uninit (limit : Nat → Nat) (name : CStr) :
    (∃ r, cmdUninit (cmdInit limit : Registry P C) = .ok r ∧
      cmdInfo limit r name = .error (.ub "use of a destroyed table")) ∧
    cmdInfo limit (Registry.null : Registry P C) name = .error (.ub "null table") := by
  refine ⟨?_, rfl⟩
  obtain ⟨t, B, A, e1, e2, _⟩ := RegInv.init (P := P) (C := C) limit
  obtain ⟨mem, fr, g1, _⟩ := e2.destroy (cmdFns_lawful limit) true
  refine ⟨.dangling, ?_, rfl⟩
  rw [e1]
  unfold cmdUninit Registry.get
  show ((.ok t : M _) >>= _) = _
  rw [hbind_ok, g1]
  rfl

/-- An example history of the registry. -/
def demoEvents : List (CmdEvent Nat Nat) :=
  [.register (cs "list") (some 1) (cs "old") 5, .register (cs "add") (some 2) (cs "add it") 6,
   .unregister (cs "add"), .register (cs "list") (some 3) (cs "new") 7, .unregister (cs "none")]

example : ∀ e ∈ demoEvents, e.fits := by
  simp [demoEvents, CmdEvent.fits]
  decide

example : registered demoEvents = [cs "list"] := by decide +kernel

example : latest demoEvents (cs "list") =
    some { name := cs "list", description := cs "new", proc := some 3, ctx := 7 } := by decide +kernel

end Argtable
